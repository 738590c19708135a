import Verif.Model.MatchColors
import Verif.Spec.MatchColors
/-! Reading the rules: tokens, values and conditions. -/
namespace Clink.MatchColors
open Spec (Piece Word textOf valueOf Ty Cond Item single)

/-! ### Tokens -/

theorem emit_single {n : Nat} (h : single n) : emit n = [n] := by
  obtain ⟨h0, h1, h2⟩ := h
  have hm : n % 65536 = n := Nat.mod_eq_of_lt h1
  unfold emit
  simp only [hm]
  rw [if_neg (by omega), if_neg h2]

theorem scan_go {v d1 d2 st tok q c l st' tok' q'} (h : step v d1 d2 st tok q c = .go st' tok' q') :
    scan v d1 d2 st tok q (c :: l) = scan v d1 d2 st' tok' q' l := by
  rw [scan]; simp only [h]

theorem scan_stop {v d1 d2 st tok q c l r tok' q'} (h : step v d1 d2 st tok q c = .stop r tok' q') :
    scan v d1 d2 st tok q (c :: l) = ⟨r, tok', q', l⟩ := by
  rw [scan]; simp only [h]

theorem scan_quote {v d1 d2 q} {s l : Text} (h : 34 ∉ s) : ∀ tok,
    scan v d1 d2 .quote tok q (s ++ 34 :: l) = scan v d1 d2 .text (tok ++ s ++ (if v then [34] else [])) q l := by
  induction s with
  | nil =>
    intro tok
    rw [List.nil_append, scan_go (st' := .text) (tok' := if v then tok ++ [34] else tok) (q' := q) rfl]
    cases v <;> simp
  | cons c s ih =>
    intro tok
    have hc : c ≠ 34 := fun e => h (e ▸ List.mem_cons_self)
    have hs : 34 ∉ s := fun e => h (List.mem_cons_of_mem _ e)
    rw [List.cons_append, scan_go (st' := .quote) (tok' := tok ++ [c]) (q' := q) (by simp only [step, if_neg hc]), ih hs]
    simp

theorem hexDigit_hexChar {u : Bool} {d : Nat} (h : d < 16) : hexDigit (Spec.hexChar u d) = some d := by
  have : d = 0 ∨ d = 1 ∨ d = 2 ∨ d = 3 ∨ d = 4 ∨ d = 5 ∨ d = 6 ∨ d = 7 ∨ d = 8 ∨ d = 9 ∨ d = 10 ∨ d = 11 ∨
      d = 12 ∨ d = 13 ∨ d = 14 ∨ d = 15 := by omega
  rcases this with h | h | h | h | h | h | h | h | h | h | h | h | h | h | h | h <;> subst h <;> cases u <;> rfl

/-- Both delimiters are characters which do not stand for themselves. -/
def Delims (stops : List Nat) (d1 d2 : Nat) : Prop := (d1 = 58 ∨ d1 ∈ stops) ∧ (d2 = 0 ∨ d2 ∈ stops)

theorem step_hex {v d1 d2 left num tok q u d} (h : d < 16) :
    step v d1 d2 (.hex left num) tok q (Spec.hexChar u d) =
      if left - 1 = 0 then .go .text (numeric v tok (num * 16 + d) (Spec.hexChar u d)) q
      else .go (.hex (left - 1) (num * 16 + d)) (if v then tok ++ [Spec.hexChar u d] else tok) q := by
  simp only [step, hexDigit_hexChar h]

theorem step_oct {v d1 d2 left num tok q d} (h : d < 8) :
    step v d1 d2 (.oct left num) tok q (48 + d) =
      if left - 1 = 0 then .go .text (numeric v tok (num * 8 + d) (48 + d)) q
      else .go (.oct (left - 1) (num * 8 + d)) (if v then tok ++ [48 + d] else tok) q := by
  simp only [step]
  rw [if_pos (by omega)]
  simp only [Nat.add_sub_cancel_left]

theorem escape_other {c : Nat} (h : c ∉ Spec.letters.map Prod.fst) : escape c = c := by
  simp only [Spec.letters, List.map_cons, List.map_nil, List.mem_cons, List.not_mem_nil, or_false, not_or] at h
  obtain ⟨h1, h2, h3, h4, h5, h6, h7, h8, h9, h10⟩ := h
  unfold escape
  simp only [if_neg h1, if_neg h2, if_neg h3, if_neg h4, if_neg h5, if_neg h6, if_neg h7, if_neg h8, if_neg h9, if_neg h10]

theorem scan_text_back {v d1 d2 tok q l} :
    scan v d1 d2 .text tok q (92 :: l) = scan v d1 d2 .back (if v then tok ++ [92] else tok) q l :=
  scan_go rfl

theorem textStep_itself {stops v d1 d2 tok q c} (hd : Delims stops d1 d2) (hc : Spec.itself stops c) :
    textStep v d1 d2 tok q c = .go .text (tok ++ [c]) q := by
  obtain ⟨h0, h58, h34, h92, h94, hs⟩ := hc
  have h1 : ¬ (c = d1 ∨ c = d2) := by
    rintro (h | h)
    · rcases hd.1 with h' | h'
      · exact h58 (h.trans h')
      · exact hs (h ▸ h')
    · rcases hd.2 with h' | h'
      · exact h0 (h.trans h')
      · exact hs (h ▸ h')
  simp only [textStep, if_neg h58, if_neg h34, if_neg h92, if_neg h94, if_neg h1]

theorem hexDigit_none {c : Nat} (h : ¬ Spec.isHex c) : hexDigit c = none := by
  unfold Spec.isHex at h
  unfold hexDigit
  rw [if_neg (by omega), if_neg (by omega), if_neg (by omega)]

theorem scan_oct_end {stops v d1 d2 left num tok q c l} (hd : Delims stops d1 d2) (hc : Spec.itself stops c) (h : ¬ Spec.isOct c) :
    scan v d1 d2 (.oct left num) tok q (c :: l) = scan v d1 d2 .text ((if v then tok else tok ++ emit num) ++ [c]) q l := by
  refine scan_go ?_
  simp only [step]
  unfold Spec.isOct at h
  rw [if_neg h]
  exact textStep_itself hd hc

theorem scan_hex_end {stops v d1 d2 left num tok q c l} (hd : Delims stops d1 d2) (hc : Spec.itself stops c) (h : ¬ Spec.isHex c) :
    scan v d1 d2 (.hex left num) tok q (c :: l) = scan v d1 d2 .text ((if v then tok else tok ++ emit num) ++ [c]) q l := by
  refine scan_go ?_
  simp only [step, hexDigit_none h]
  exact textStep_itself hd hc

theorem scan_piece {stops v d1 d2} (hd : Delims stops d1 d2) {p : Piece} (hp : p.ok stops) (tok : Text) (q : Bool) (l : Text) :
    scan v d1 d2 .text tok q (p.text ++ l) =
      scan v d1 d2 .text (tok ++ (if v then p.text else p.value)) (q || p.isQuoted) l := by
  cases p with
  | ch c =>
    simp only [Piece.text, Piece.value, Piece.isQuoted, Bool.or_false, List.singleton_append]
    rw [scan_go (st' := .text) (tok' := tok ++ [c]) (q' := q) (show step v d1 d2 .text tok q c = _ from textStep_itself hd hp)]
    cases v <;> rfl
  | esc c =>
    obtain ⟨h1, h2, h3, h4, h5, h6, h7⟩ := hp
    simp only [Piece.text, Piece.value, Piece.isQuoted, Bool.or_false, List.cons_append, List.nil_append]
    rw [scan_text_back, scan_go (st' := .text) (q' := q) (by
      simp only [step]
      rw [if_neg h3, if_neg (by omega), if_neg (by omega), escape_other h2])]
    unfold numeric
    cases v <;> simp [emit_single h1]
  | named c x =>
    simp only [Piece.text, Piece.value, Piece.isQuoted, Bool.or_false, List.cons_append, List.nil_append]
    simp only [Piece.ok, Spec.letters, List.mem_cons, List.not_mem_nil, or_false, Prod.mk.injEq] at hp
    rw [scan_text_back]
    rcases hp with ⟨h, h'⟩ | ⟨h, h'⟩ | ⟨h, h'⟩ | ⟨h, h'⟩ | ⟨h, h'⟩ | ⟨h, h'⟩ | ⟨h, h'⟩ | ⟨h, h'⟩ | ⟨h, h'⟩ | ⟨h, h'⟩ <;>
      subst h <;> subst h' <;> cases v <;> rw [scan_go (st' := .text) (q' := q) rfl] <;> simp [numeric, emit, escape]
  | oct a b c =>
    obtain ⟨ha, hb, hc, h0⟩ := hp
    simp only [Piece.text, Piece.value, Piece.isQuoted, Bool.or_false, List.cons_append, List.nil_append]
    rw [scan_text_back, scan_go (st' := .oct 2 a) (q' := q) (by
      simp only [step]
      rw [if_pos (by omega)]
      simp only [Nat.add_sub_cancel_left]
      rfl)]
    rw [scan_go (by rw [step_oct hb]; rfl), scan_go (by rw [step_oct hc]; rfl)]
    have hs : single ((a * 8 + b) * 8 + c) := ⟨by omega, by omega, by omega⟩
    have he : (a * 8 + b) * 8 + c = 64 * a + 8 * b + c := by omega
    unfold numeric
    rw [emit_single hs, he]
    cases v <;> simp
  | hex wide upper ds =>
    obtain ⟨hl, hds, hs⟩ := hp
    simp only [Piece.text, Piece.value, Piece.isQuoted, Bool.or_false, List.cons_append, List.nil_append]
    rw [scan_text_back]
    have hx : ∀ {l}, scan v d1 d2 .back (if v then tok ++ [92] else tok) q
        ((if wide then (if upper then 85 else 117) else (if upper then 88 else 120)) :: l) =
        scan v d1 d2 (.hex (if wide then 4 else 2) 0)
          (if v then tok ++ [92, if wide then (if upper then 85 else 117) else (if upper then 88 else 120)] else tok) q l := by
      intro l
      cases v <;> cases wide <;> cases upper <;> exact (scan_go rfl).trans (by simp)
    rw [hx]
    cases wide with
    | false =>
      match ds, hl with
      | [a, b], _ =>
        have ha := hds a (by simp)
        have hb := hds b (by simp)
        simp only [List.map_cons, List.map_nil, List.cons_append, List.nil_append]
        rw [scan_go (by simp only [Bool.false_eq_true, if_false]; rw [step_hex ha]; rfl), scan_go (by rw [step_hex hb]; rfl)]
        have hv : (0 * 16 + a.2) * 16 + b.2 = Spec.hexValue [a, b] := rfl
        unfold numeric
        rw [hv, emit_single hs]
        cases v <;> cases upper <;> simp
    | true =>
      match ds, hl with
      | [a, b, c, d], _ =>
        have ha := hds a (by simp)
        have hb := hds b (by simp)
        have hc := hds c (by simp)
        have hd := hds d (by simp)
        simp only [List.map_cons, List.map_nil, List.cons_append, List.nil_append]
        rw [scan_go (by simp only [if_true]; rw [step_hex ha]; rfl), scan_go (by rw [step_hex hb]; rfl),
          scan_go (by rw [step_hex hc]; rfl), scan_go (by rw [step_hex hd]; rfl)]
        have hv : (((0 * 16 + a.2) * 16 + b.2) * 16 + c.2) * 16 + d.2 = Spec.hexValue [a, b, c, d] := rfl
        unfold numeric
        rw [hv, emit_single hs]
        cases v <;> cases upper <;> simp
  | ctrl c =>
    simp only [Piece.text, Piece.value, Piece.isQuoted, Bool.or_false, List.cons_append, List.nil_append]
    rw [scan_go (c := 94) (st' := .caret) (tok' := if v then tok ++ [94] else tok) (q' := q) rfl]
    rcases hp with h | ⟨h1, h2, h3⟩
    · subst h
      rw [scan_go (st' := .text) (q' := q) rfl]
      cases v <;> simp [numeric, emit]
    · rw [scan_go (st' := .text) (q' := q) (by simp only [step]; rw [if_pos (by omega)])]
      have hs : single (c % 32) := ⟨by omega, by omega, by omega⟩
      unfold numeric
      rw [emit_single hs, if_neg (show ¬ c = 63 by omega)]
      cases v <;> simp
  | quoted s =>
    simp only [Piece.text, Piece.value, Piece.isQuoted, Bool.or_true, List.cons_append, List.append_assoc, List.nil_append]
    rw [scan_go (c := 34) (st' := .quote) (tok' := if v then tok ++ [34] else tok) (q' := true) rfl, scan_quote hp.1]
    cases v <;> simp
  | octThen ds c =>
    obtain ⟨hl, hds, h0, hc, hn⟩ := hp
    simp only [Piece.text, Piece.value, Piece.isQuoted, Bool.or_false, List.cons_append, List.append_assoc, List.nil_append]
    rw [scan_text_back]
    have first : ∀ {a : Nat} {l}, a < 8 → scan v d1 d2 .back (if v then tok ++ [92] else tok) q ((48 + a) :: l) =
        scan v d1 d2 (.oct 2 a) (if v then tok ++ [92, 48 + a] else tok) q l := by
      intro a l ha
      refine (scan_go (st' := .oct 2 a) (q' := q) (by
        simp only [step]
        rw [if_pos (by omega)]
        simp only [Nat.add_sub_cancel_left]
        rfl)).trans ?_
      cases v <;> simp
    match ds, hl with
    | [a], _ =>
      have ha := hds a (by simp)
      have hv : Spec.octValue [a] = a := by simp [Spec.octValue]
      rw [hv] at h0
      simp only [List.map_cons, List.map_nil, List.cons_append, List.nil_append]
      rw [first ha, scan_oct_end hd hc hn, emit_single ⟨h0, by omega, by omega⟩, hv]
      cases v <;> simp
    | [a, b], _ =>
      have ha := hds a (by simp)
      have hb := hds b (by simp)
      have hv : Spec.octValue [a, b] = a * 8 + b := by simp [Spec.octValue]
      rw [hv] at h0
      simp only [List.map_cons, List.map_nil, List.cons_append, List.nil_append]
      rw [first ha, scan_go (by rw [step_oct hb]; rfl), scan_oct_end hd hc hn, emit_single ⟨h0, by omega, by omega⟩, hv]
      cases v <;> simp
  | hexThen wide upper ds c =>
    obtain ⟨hl0, hl, hds, h0, hc, hn⟩ := hp
    simp only [Piece.text, Piece.value, Piece.isQuoted, Bool.or_false, List.cons_append, List.append_assoc, List.nil_append]
    rw [scan_text_back]
    have hx : ∀ {l}, scan v d1 d2 .back (if v then tok ++ [92] else tok) q
        ((if wide then (if upper then 85 else 117) else (if upper then 88 else 120)) :: l) =
        scan v d1 d2 (.hex (if wide then 4 else 2) 0)
          (if v then tok ++ [92, if wide then (if upper then 85 else 117) else (if upper then 88 else 120)] else tok) q l := by
      intro l
      cases v <;> cases wide <;> cases upper <;> exact (scan_go rfl).trans (by simp)
    rw [hx]
    have digits : ∀ (ds : List (Bool × Nat)) (left num : Nat) (tok : Text), (∀ d ∈ ds, d.2 < 16) → ds.length < left →
        ∃ left', scan v d1 d2 (.hex left num) tok q (ds.map (fun d => Spec.hexChar d.1 d.2) ++ c :: l) =
          scan v d1 d2 (.hex left' (ds.foldl (fun n d => n * 16 + d.2) num))
            (if v then tok ++ ds.map (fun d => Spec.hexChar d.1 d.2) else tok) q (c :: l) := by
      intro ds
      induction ds with
      | nil => intro left num tok _ _; exact ⟨left, by simp⟩
      | cons d ds ih =>
        intro left num tok hds hlen
        simp only [List.length_cons] at hlen
        obtain ⟨left', h⟩ := ih (left - 1) (num * 16 + d.2) (if v then tok ++ [Spec.hexChar d.1 d.2] else tok)
          (fun x hx => hds x (List.mem_cons_of_mem _ hx)) (by omega)
        refine ⟨left', ?_⟩
        rw [List.map_cons, List.cons_append, scan_go (by rw [step_hex (hds d List.mem_cons_self), if_neg (by omega)]), h]
        cases v <;> simp
    obtain ⟨left', hdig⟩ := digits ds (if wide then 4 else 2) 0 _ hds hl
    have hbound : Spec.hexValue ds < 4096 := by
      have : ds.length ≤ 3 := by split at hl <;> omega
      match ds, hds, this with
      | [], _, _ => simp [Spec.hexValue]
      | [a], hds, _ => have := hds a (by simp); simp only [Spec.hexValue, List.foldl_cons, List.foldl_nil]; omega
      | [a, b], hds, _ =>
        have := hds a (by simp); have := hds b (by simp)
        simp only [Spec.hexValue, List.foldl_cons, List.foldl_nil]; omega
      | [a, b, e], hds, _ =>
        have := hds a (by simp); have := hds b (by simp); have := hds e (by simp)
        simp only [Spec.hexValue, List.foldl_cons, List.foldl_nil]; omega
    rw [hdig, scan_hex_end hd hc hn]
    have hv : ds.foldl (fun n d => n * 16 + d.2) 0 = Spec.hexValue ds := rfl
    rw [hv, emit_single ⟨h0, by omega, by omega⟩]
    cases v <;> simp

def quotedIn (w : Word) : Bool := w.any Piece.isQuoted

theorem scan_word {stops v d1 d2} (hd : Delims stops d1 d2) {w : Word} (hw : ∀ p ∈ w, p.ok stops) : ∀ (tok : Text) (q : Bool) (l : Text),
    scan v d1 d2 .text tok q (textOf w ++ l) =
      scan v d1 d2 .text (tok ++ (if v then textOf w else valueOf w)) (q || quotedIn w) l := by
  induction w with
  | nil => intro tok q l; cases v <;> simp [textOf, valueOf, quotedIn]
  | cons p w ih =>
    intro tok q l
    have h1 : textOf (p :: w) ++ l = p.text ++ (textOf w ++ l) := by simp [textOf]
    rw [h1, scan_piece hd (hw p List.mem_cons_self), ih (fun p' h => hw p' (List.mem_cons_of_mem _ h))]
    cases v <;> simp [textOf, valueOf, quotedIn, Bool.or_assoc]

theorem itself_mono {s s' : List Nat} (h : ∀ c ∈ s', c ∈ s) {c : Nat} (hp : Spec.itself s c) : Spec.itself s' c :=
  ⟨hp.1, hp.2.1, hp.2.2.1, hp.2.2.2.1, hp.2.2.2.2.1, fun hm => hp.2.2.2.2.2 (h c hm)⟩

theorem ok_mono {s s' : List Nat} (h : ∀ c ∈ s', c ∈ s) {p : Piece} (hp : p.ok s) : p.ok s' := by
  cases p with
  | ch c => exact itself_mono h hp
  | esc c => exact hp
  | named c v => exact hp
  | oct a b c => exact hp
  | hex w u ds => exact hp
  | ctrl c => exact hp
  | quoted s => exact hp
  | octThen ds c => exact ⟨hp.1, hp.2.1, hp.2.2.1, itself_mono h hp.2.2.2.1, hp.2.2.2.2⟩
  | hexThen w u ds c => exact ⟨hp.1, hp.2.1, hp.2.2.1, hp.2.2.2.1, itself_mono h hp.2.2.2.2.1, hp.2.2.2.2.2⟩

/-! ### Items -/

theorem textOf_append (a b : Word) : textOf (a ++ b) = textOf a ++ textOf b := by simp [textOf]

theorem textOf_blanks (n : Nat) : textOf (List.replicate n (.ch 32)) = Spec.blanks n := by
  induction n with
  | zero => rfl
  | succ n ih =>
    have : textOf (List.replicate (n + 1) (.ch 32)) = 32 :: textOf (List.replicate n (.ch 32)) := by
      rw [List.replicate_succ]; simp [textOf, Piece.text]
    rw [this, ih]; rfl

theorem ok_blanks {n : Nat} : ∀ p ∈ List.replicate n (Piece.ch 32), p.ok [61] := by
  intro p hp
  rw [(List.mem_replicate.1 hp).2]
  exact ⟨by decide, by decide, by decide, by decide, by decide, by decide⟩

theorem spaced_word {ws : List Word} {core : Text} (h : Spec.Spaced ws core) (hw : ∀ w ∈ ws, Word.ok w) :
    ∃ W : Word, textOf W = core ∧ ∀ p ∈ W, p.ok [61] := by
  have one : ∀ {w : Word}, Word.ok w → ∀ p ∈ w, p.ok [61] := fun h p hp => ok_mono (by simp) (h.2.1 p hp)
  induction h with
  | one w => exact ⟨w, rfl, one (hw w List.mem_cons_self)⟩
  | @cons w n ws t _ ih =>
    obtain ⟨W, h1, h2⟩ := ih (fun w' h => hw w' (List.mem_cons_of_mem _ h))
    refine ⟨w ++ List.replicate (n + 1) (.ch 32) ++ W, ?_, ?_⟩
    · rw [textOf_append, textOf_append, textOf_blanks, h1]; rfl
    · intro p hp
      simp only [List.mem_append] at hp
      rcases hp with (hp | hp) | hp
      · exact one (hw w List.mem_cons_self) p hp
      · exact ok_blanks p hp
      · exact h2 p hp

theorem getToken_verbatim {W : Word} (hW : ∀ p ∈ W, p.ok [61]) (l : Text) :
    getToken true 58 61 (textOf W ++ 61 :: l) = ⟨.delim 61, textOf W, quotedIn W, l⟩ := by
  unfold getToken
  rw [scan_word (stops := [61]) ⟨.inl rfl, .inr (by simp)⟩ hW, scan_stop (r := .delim 61) rfl]
  simp

/-- What may come after an item. -/
def Tail (u : Text) : Prop := u = [] ∨ ∃ s, u = 58 :: s

theorem getToken_value {color v u : Text} (h : Spec.IsColor color v) (hu : Tail u) :
    ∃ q, getToken false 58 0 (v ++ u) = ⟨.fin, color, q, u.tail⟩ := by
  obtain ⟨w, hw, h1, h2⟩ := h
  subst h1; subst h2
  unfold getToken
  rw [scan_word (stops := []) ⟨.inl rfl, .inl rfl⟩ hw]
  refine ⟨false || quotedIn w, ?_⟩
  rcases hu with hu | ⟨s, hu⟩ <;> subst hu
  · simp [scan]
  · rw [scan_stop (r := .fin) rfl]; simp

def blank4 (c : Nat) : Bool := c == 32 || c == 9 || c == 13 || c == 10

theorem dropWhile_blanks {f : Nat → Bool} (hf : f 32 = true) (n : Nat) (l : Text) :
    (Spec.blanks n ++ l).dropWhile f = l.dropWhile f := by
  induction n with
  | zero => rfl
  | succ n ih =>
    have : Spec.blanks (n + 1) ++ l = 32 :: (Spec.blanks n ++ l) := rfl
    rw [this, List.dropWhile_cons_of_pos hf, ih]

theorem blanks_reverse (n : Nat) : (Spec.blanks n).reverse = Spec.blanks n := by simp [Spec.blanks]

theorem trim_core {core : Text} (a b : Nat) {c : Nat} {r : Text} (hc : core = c :: r) (h1 : c ≠ 32) (h2 : c ≠ 9)
    (hl : ∀ x, core.getLast? = some x → blank4 x = false) :
    trim (Spec.blanks a ++ core ++ Spec.blanks b) = core := by
  unfold trim
  have hrev : (Spec.blanks a ++ core ++ Spec.blanks b).reverse = Spec.blanks b ++ (core.reverse ++ Spec.blanks a) := by
    simp [blanks_reverse]
  rw [hrev, dropWhile_blanks rfl]
  have hne : core.reverse ≠ [] := by rw [hc]; simp
  obtain ⟨x, y, hxy⟩ := List.exists_cons_of_ne_nil hne
  have hx : blank4 x = false := by
    apply hl
    have : core = y.reverse ++ [x] := by rw [← List.reverse_reverse core, hxy]; simp
    rw [this]; simp
  rw [hxy, List.cons_append, List.dropWhile_cons_of_neg (by unfold blank4 at hx; simp only [hx]; decide), ← List.cons_append, ← hxy]
  simp only [List.reverse_append, List.reverse_reverse, blanks_reverse]
  rw [dropWhile_blanks rfl, hc, List.dropWhile_cons_of_neg]
  simp [h1, h2]

theorem head_piece {p : Piece} (hp : p.ok [32, 9, 13, 10, 61]) : ∃ c r, p.text = c :: r ∧ c ≠ 32 ∧ c ≠ 9 := by
  cases p with
  | ch c =>
    have := hp.2.2.2.2.2
    simp only [List.mem_cons, not_or] at this
    exact ⟨c, [], rfl, this.1, this.2.1⟩
  | esc c => exact ⟨92, _, rfl, by decide, by decide⟩
  | named c v => exact ⟨92, _, rfl, by decide, by decide⟩
  | oct a b c => exact ⟨92, _, rfl, by decide, by decide⟩
  | hex w u ds => exact ⟨92, _, rfl, by decide, by decide⟩
  | ctrl c => exact ⟨94, _, rfl, by decide, by decide⟩
  | quoted s => exact ⟨34, _, rfl, by decide, by decide⟩
  | octThen ds c => exact ⟨92, _, rfl, by decide, by decide⟩
  | hexThen w u ds c => exact ⟨92, _, rfl, by decide, by decide⟩

theorem head_word {w : Word} (hw : Word.ok w) : ∃ c r, textOf w = c :: r ∧ c ≠ 32 ∧ c ≠ 9 := by
  obtain ⟨p, w', rfl⟩ := List.exists_cons_of_ne_nil hw.1
  obtain ⟨c, r, h, h1, h2⟩ := head_piece (hw.2.1 p List.mem_cons_self)
  exact ⟨c, r ++ textOf w', by simp [textOf, h], h1, h2⟩

theorem head_spaced {ws : List Word} {core : Text} (h : Spec.Spaced ws core) (hw : ∀ w ∈ ws, Word.ok w) :
    ∃ c r, core = c :: r ∧ c ≠ 32 ∧ c ≠ 9 := by
  cases h with
  | one w => exact head_word (hw w List.mem_cons_self)
  | cons w n h =>
    obtain ⟨c, r, h1, h2⟩ := head_word (hw w List.mem_cons_self)
    exact ⟨c, _, by rw [h1]; rfl, h2⟩

/-! ### Conditions -/

theorem getToken_blank (l : Text) : getToken false 32 0 (32 :: l) = ⟨.delim 32, [], false, l⟩ := rfl

theorem getToken_word {w : Word} (hw : Word.ok w) (l : Text) :
    getToken false 32 0 (textOf w ++ 32 :: l) = ⟨.delim 32, valueOf w, quotedIn w, l⟩ := by
  unfold getToken
  rw [scan_word (stops := [32, 9, 13, 10, 61]) ⟨.inr (by simp), .inl rfl⟩ hw.2.1, scan_stop (r := .delim 32) rfl]
  simp

theorem getToken_last {w : Word} (hw : Word.ok w) :
    getToken false 32 0 (textOf w) = ⟨.fin, valueOf w, quotedIn w, []⟩ := by
  have := scan_word (stops := [32, 9, 13, 10, 61]) (v := false) (d1 := 32) (d2 := 0) ⟨.inr (by simp), .inl rfl⟩ hw.2.1 [] false []
  unfold getToken
  rw [List.append_nil] at this
  rw [this]
  simp [scan]

theorem conds_blanks (s : Cur) (l : Text) : ∀ (k n : Nat), n > (Spec.blanks k ++ l).length →
    ∃ n', n' > l.length ∧ conds n s (Spec.blanks k ++ l) = conds n' s l := by
  intro k
  induction k with
  | zero => intro n h; exact ⟨n, by simpa [Spec.blanks] using h, rfl⟩
  | succ k ih =>
    intro n h
    have he : Spec.blanks (k + 1) ++ l = 32 :: (Spec.blanks k ++ l) := rfl
    rw [he] at h ⊢
    obtain ⟨n, rfl⟩ : ∃ m, n = m + 1 := ⟨n - 1, by simp at h; omega⟩
    obtain ⟨n', h1, h2⟩ := ih n (by simpa using h)
    refine ⟨n', h1, ?_⟩
    rw [conds]
    simp only [getToken_blank]
    exact h2

theorem conds_spaced {ws : List Word} {core : Text} (h : Spec.Spaced ws core) (hw : ∀ w ∈ ws, Word.ok w) : ∀ (n : Nat) (s : Cur),
    n > core.length → conds n s core = some (ws.foldl (fun s w => condStep s (valueOf w) (quotedIn w)) s) := by
  induction h with
  | one w =>
    intro n s hn
    have ho := hw w List.mem_cons_self
    obtain ⟨c, r, hc, _⟩ := head_word ho
    obtain ⟨n, rfl⟩ : ∃ m, n = m + 1 := ⟨n - 1, by omega⟩
    have ht := getToken_last ho
    rw [hc] at ht ⊢
    rw [conds]
    have hv : (valueOf w).isEmpty = false := by
      cases hx : valueOf w with
      | nil => exact absurd hx ho.2.2
      | cons a b => rfl
    simp only [ht, hv]
    cases n <;> rfl
  | @cons w k ws t _ ih =>
    intro n s hn
    have ho := hw w List.mem_cons_self
    obtain ⟨c, r, hc, _⟩ := head_word ho
    obtain ⟨n, rfl⟩ : ∃ m, n = m + 1 := ⟨n - 1, by omega⟩
    have he : textOf w ++ List.replicate (k + 1) 32 ++ t = textOf w ++ 32 :: (Spec.blanks k ++ t) := by
      simp [Spec.blanks, List.replicate_succ]
    rw [he] at hn ⊢
    have ht := getToken_word ho (Spec.blanks k ++ t)
    rw [hc, List.cons_append] at ht ⊢
    rw [conds]
    have hv : (valueOf w).isEmpty = false := by
      cases hx : valueOf w with
      | nil => exact absurd hx ho.2.2
      | cons a b => rfl
    simp only [ht, hv]
    obtain ⟨n', h1, h2⟩ := conds_blanks (condStep s (valueOf w) (quotedIn w)) t k n (by
      rw [hc] at hn; simp only [List.length_append, List.length_cons] at hn ⊢; omega)
    rw [if_neg (by simp), if_neg (by simp), h2, ih (fun w' h => hw w' (List.mem_cons_of_mem _ h)) n' _ h1]
    rfl

end Clink.MatchColors
