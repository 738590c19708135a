import Verif.Proof.Attributes

/-! What the printer writes is what should be seen. -/

namespace Clink.Attributes
open Spec

theorem fields_sep (x y : List Nat) : fields (x ++ [59] ++ y) = fields x ++ fields y := by
  induction x with
  | nil => simp [fields]
  | cons c r ih =>
    rw [List.cons_append, List.cons_append, fields, fields, ih]
    by_cases hc : c = 59
    · simp [hc]
    · rw [if_neg hc, if_neg hc]
      match hf : fields r with
      | [] => exact absurd hf (fields_ne r)
      | f :: fs => rfl

theorem fields_digits (x : List Nat) (h : ∀ c ∈ x, c < 58) : fields x = [x] := by
  induction x with
  | nil => rfl
  | cons c r ih =>
    have hc := h c (by simp)
    rw [fields, if_neg (by omega), ih (fun c hc => h c (by simp [hc]))]
    simp
    omega

/-- The parameters that are added one after the other. -/
def join (l : List (List Nat)) : List Nat := l.foldl addParam []

theorem join_fields (l : List (List Nat)) (h : ∀ x ∈ l, x ≠ [] ∧ ∀ c ∈ x, c < 58) : ∀ p, p ≠ [] → l.foldl addParam p ≠ [] ∧ fields (l.foldl addParam p) = fields p ++ l := by
  induction l with
  | nil => intro p hp; simp [hp]
  | cons x r ih =>
    intro p hp
    have hx := h x (by simp)
    rw [List.foldl_cons]
    have e : addParam p x = p ++ [59] ++ x := by simp [addParam, hp]
    have := ih (fun y hy => h y (by simp [hy])) (addParam p x) (by simp [e])
    refine ⟨this.1, ?_⟩
    rw [this.2, e, fields_sep, fields_digits x hx.2]
    simp

theorem join_numbers (l : List (List Nat)) (h : ∀ x ∈ l, x ≠ [] ∧ ∀ c ∈ x, c < 58) (hl : l.length ≤ 32) (hne : l ≠ []) : join l ≠ [] ∧ numbers (join l) = l.map value := by
  match l, hne with
  | x :: r, _ =>
    have hx := h x (by simp)
    have e : addParam [] x = x := by simp [addParam]
    have := join_fields r (fun y hy => h y (by simp [hy])) x hx.1
    unfold join
    rw [List.foldl_cons, e]
    refine ⟨this.1, ?_⟩
    unfold numbers
    rw [if_neg this.1, this.2, fields_digits x hx.2, List.take_of_length_le]
    · rfl
    · simpa using hl

def fgPiece (c : BitVec 16) : List Nat := if c ≠ defaultCode then [51 + if 7 < c.toNat then 6 else 0, 48 + (c.toNat &&& 7)] else Color.bs "39"
def bgPiece (c : BitVec 16) : List Nat :=
  if c ≠ defaultCode then ((if 7 < c.toNat then [49] else []) ++ [48 + if 7 < c.toNat then 0 else 4, 48 + (c.toNat &&& 7)]) else Color.bs "49"

def pieces (d : Attr) : List (List Nat) :=
  (if d.fg = defaultCode ∧ d.bg = defaultCode then [Color.bs "0"] else (if d.hasFg then [fgPiece d.fg] else []) ++ (if d.hasBg then [bgPiece d.bg] else [])) ++
  (if d.hasBold then [Color.bs (if d.bold then "1" else "22")] else []) ++ (if d.hasUnderline then [Color.bs (if d.underline then "4" else "24")] else [])

def Printer.delta (p : Printer) : Attr := if p.nodiff then p.next else diff p.set p.next

theorem flush_pieces (p : Printer) : p.flush = ({ p with set := p.next }, if join (pieces p.delta) ≠ [] then [.seq (join (pieces p.delta))] else []) := by
  have key : ∀ (P : List Nat) (c : Bool) (x : List Nat), (if c then addParam P x else P) = (if c then [x] else []).foldl addParam P := by
    intro P c x
    cases c <;> rfl
  have : ∀ d : Attr, join (pieces d) =
      (let params : List Nat := []
      let params :=
        if d.fg = defaultCode ∧ d.bg = defaultCode then addParam params (Color.bs "0")
        else
          let params :=
            if d.hasFg then
              if d.fg ≠ defaultCode then addParam params [51 + if 7 < d.fg.toNat then 6 else 0, 48 + (d.fg.toNat &&& 7)]
              else addParam params (Color.bs "39")
            else params
          if d.hasBg then
            if d.bg ≠ defaultCode then addParam params ((if 7 < d.bg.toNat then [49] else []) ++ [48 + if 7 < d.bg.toNat then 0 else 4, 48 + (d.bg.toNat &&& 7)])
            else addParam params (Color.bs "49")
          else params
      let params := if d.hasBold then addParam params (Color.bs (if d.bold then "1" else "22")) else params
      if d.hasUnderline then addParam params (Color.bs (if d.underline then "4" else "24")) else params) := by
    intro d
    dsimp only
    unfold join pieces
    rw [List.foldl_append, List.foldl_append, key, key]
    congr 2
    by_cases h : d.fg = defaultCode ∧ d.bg = defaultCode
    · rw [if_pos h, if_pos h]
      rfl
    · rw [if_neg h, if_neg h, List.foldl_append]
      have k1 : ∀ P : List Nat, (if d.fg ≠ defaultCode then addParam P [51 + if 7 < d.fg.toNat then 6 else 0, 48 + (d.fg.toNat &&& 7)] else addParam P (Color.bs "39")) = addParam P (fgPiece d.fg) := by
        intro P
        unfold fgPiece
        split <;> rfl
      have k2 : ∀ P : List Nat, (if d.bg ≠ defaultCode then addParam P ((if 7 < d.bg.toNat then [49] else []) ++ [48 + if 7 < d.bg.toNat then 0 else 4, 48 + (d.bg.toNat &&& 7)]) else addParam P (Color.bs "49")) = addParam P (bgPiece d.bg) := by
        intro P
        unfold bgPiece
        split <;> rfl
      rw [k1, k2, key, key]
  rw [this]
  rfl

/-- A value of one of the 16 colours or the default one. -/
def Basic (c : BitVec 16) : Prop := c = 231 ∨ c.toNat < 16

theorem basic_iff (c : BitVec 16) : (colour c).Basic ↔ Basic c := by
  unfold colour Basic
  by_cases h1 : c = 231
  · simp [h1, Colour.Basic]
  · rw [if_neg h1]
    by_cases h2 : c.toNat < 32768
    · rw [if_pos h2]
      exact ⟨.inr, fun h => h.resolve_left h1⟩
    · rw [if_neg h2]
      simp only [Colour.Basic, h1, false_or, false_iff]
      omega

theorem basic_cases {P : BitVec 16 → Prop} (h0 : P 231) (h : ∀ n < 16, P (BitVec.ofNat 16 n)) (c : BitVec 16) (hc : Basic c) : P c := by
  rcases hc with rfl | hc
  · exact h0
  · have := h c.toNat hc
    simpa using this

theorem fg_piece (c : BitVec 16) (hc : Basic c) (l : Look) : fgPiece c ≠ [] ∧ (∀ x ∈ fgPiece c, x < 58) ∧ value (fgPiece c) ≠ 38 ∧ value (fgPiece c) ≠ 48 ∧
    act (value (fgPiece c)) l = { l with fg := colour c } := by
  refine basic_cases (P := fun c => fgPiece c ≠ [] ∧ (∀ x ∈ fgPiece c, x < 58) ∧ value (fgPiece c) ≠ 38 ∧ value (fgPiece c) ≠ 48 ∧ act (value (fgPiece c)) l = { l with fg := colour c }) ?_ ?_ c hc
  · exact ⟨by decide, by decide, by decide, by decide, rfl⟩
  · intro n hn
    have k1 : ∀ n < 16, fgPiece (BitVec.ofNat 16 n) ≠ [] ∧ (∀ x ∈ fgPiece (BitVec.ofNat 16 n), x < 58) ∧ value (fgPiece (BitVec.ofNat 16 n)) = (if n < 8 then 30 + n else 82 + n) ∧ colour (BitVec.ofNat 16 n) = .index n := by decide +kernel
    obtain ⟨h1, h2, h3, h4⟩ := k1 n hn
    refine ⟨h1, h2, by rw [h3]; split <;> omega, by rw [h3]; split <;> omega, ?_⟩
    rw [h3, h4]
    have : Code (if n < 8 then 30 + n else 82 + n) l { l with fg := .index n } := by
      split
      · exact .fg (by omega)
      · obtain ⟨k, rfl⟩ : ∃ k, n = 8 + k := ⟨n - 8, by omega⟩
        rw [show 82 + (8 + k) = 90 + k by omega]
        exact .brightFg (by omega)
    exact (code_act this).2.2.symm

theorem bg_piece (c : BitVec 16) (hc : Basic c) (l : Look) : bgPiece c ≠ [] ∧ (∀ x ∈ bgPiece c, x < 58) ∧ value (bgPiece c) ≠ 38 ∧ value (bgPiece c) ≠ 48 ∧
    act (value (bgPiece c)) l = { l with bg := colour c } := by
  refine basic_cases (P := fun c => bgPiece c ≠ [] ∧ (∀ x ∈ bgPiece c, x < 58) ∧ value (bgPiece c) ≠ 38 ∧ value (bgPiece c) ≠ 48 ∧ act (value (bgPiece c)) l = { l with bg := colour c }) ?_ ?_ c hc
  · exact ⟨by decide, by decide, by decide, by decide, rfl⟩
  · intro n hn
    have k1 : ∀ n < 16, bgPiece (BitVec.ofNat 16 n) ≠ [] ∧ (∀ x ∈ bgPiece (BitVec.ofNat 16 n), x < 58) ∧ value (bgPiece (BitVec.ofNat 16 n)) = (if n < 8 then 40 + n else 92 + n) ∧ colour (BitVec.ofNat 16 n) = .index n := by decide +kernel
    obtain ⟨h1, h2, h3, h4⟩ := k1 n hn
    refine ⟨h1, h2, by rw [h3]; split <;> omega, by rw [h3]; split <;> omega, ?_⟩
    rw [h3, h4]
    have : Code (if n < 8 then 40 + n else 92 + n) l { l with bg := .index n } := by
      split
      · exact .bg (by omega)
      · obtain ⟨k, rfl⟩ : ∃ k, n = 8 + k := ⟨n - 8, by omega⟩
        rw [show 92 + (8 + k) = 100 + k by omega]
        exact .brightBg (by omega)
    exact (code_act this).2.2.symm

theorem act_code (p : Nat) (h1 : p ≠ 38) (h2 : p ≠ 48) (l : Look) : Code p l (act p l) := by
  obtain ⟨a', _, h⟩ := code_step ⟨h1, h2⟩ {} l
  rw [over_empty] at h
  rw [← (code_act h).2.2]
  exact h

theorem acts_sgr (ps : List Nat) (h : ∀ p ∈ ps, p ≠ 38 ∧ p ≠ 48) : ∀ l, Sgr ps l (ps.foldl (fun l p => act p l) l) := by
  induction ps with
  | nil => intro l; exact .done
  | cons p r ih =>
    intro l
    have hp := h p (by simp)
    exact .code (act_code p hp.1 hp.2 l) (ih (fun q hq => h q (by simp [hq])) _)

theorem sgr_unique {ps : List Nat} {l m m' : Look} (h : Sgr ps l m) (h' : Sgr ps l m') : m = m' := by
  rw [sgr_fun h {} l rfl, sgr_fun h' {} l rfl]

theorem pieces_good (d : Attr) (hf : d.hasFg = true → Basic d.fg) (hb : d.hasBg = true → Basic d.bg) : ∀ x ∈ pieces d, x ≠ [] ∧ (∀ c ∈ x, c < 58) ∧ value x ≠ 38 ∧ value x ≠ 48 := by
  have a1 := fun h => fg_piece d.fg (hf h) {}
  have a2 := fun h => bg_piece d.bg (hb h) {}
  have b1 : ∀ x ∈ [Color.bs "0", Color.bs "1", Color.bs "22", Color.bs "4", Color.bs "24"], x ≠ [] ∧ (∀ c ∈ x, c < 58) ∧ value x ≠ 38 ∧ value x ≠ 48 := by decide
  intro x hx
  unfold pieces at hx
  rw [List.mem_append, List.mem_append] at hx
  rcases hx with (hx | hx) | hx
  · split at hx
    · exact b1 x (by simp at hx; simp [hx])
    · rw [List.mem_append] at hx
      rcases hx with hx | hx
      · split at hx
        · rename_i h
          rw [List.mem_singleton.1 hx]
          exact ⟨(a1 h).1, (a1 h).2.1, (a1 h).2.2.1, (a1 h).2.2.2.1⟩
        · simp at hx
      · split at hx
        · rename_i h
          rw [List.mem_singleton.1 hx]
          exact ⟨(a2 h).1, (a2 h).2.1, (a2 h).2.2.1, (a2 h).2.2.2.1⟩
        · simp at hx
  · split at hx
    · refine b1 x ?_
      rw [List.mem_singleton.1 hx]
      cases d.bold <;> simp
    · simp at hx
  · split at hx
    · refine b1 x ?_
      rw [List.mem_singleton.1 hx]
      cases d.underline <;> simp
    · simp at hx

/-- The look after what is written for `d`. -/
def after (d : Attr) (l : Look) : Look :=
  let l := if d.fg = 231 ∧ d.bg = 231 then ({} : Look) else { l with fg := if d.hasFg then colour d.fg else l.fg, bg := if d.hasBg then colour d.bg else l.bg }
  { l with bold := if d.hasBold then d.bold else l.bold, underline := if d.hasUnderline then d.underline else l.underline }

theorem pieces_after (d : Attr) (hf : d.hasFg = true → Basic d.fg) (hb : d.hasBg = true → Basic d.bg) (l : Look) : ((pieces d).map value).foldl (fun l p => act p l) l = after d l := by
  unfold pieces after
  rw [List.map_append, List.map_append, List.foldl_append, List.foldl_append]
  have e1 : ((if d.fg = defaultCode ∧ d.bg = defaultCode then [Color.bs "0"] else (if d.hasFg then [fgPiece d.fg] else []) ++ (if d.hasBg then [bgPiece d.bg] else [])).map value).foldl (fun l p => act p l) l =
      if d.fg = 231 ∧ d.bg = 231 then ({} : Look) else { l with fg := if d.hasFg then colour d.fg else l.fg, bg := if d.hasBg then colour d.bg else l.bg } := by
    by_cases h : d.fg = 231 ∧ d.bg = 231
    · have h' : d.fg = defaultCode ∧ d.bg = defaultCode := h
      rw [if_pos h, if_pos h']
      rfl
    · have h' : ¬ (d.fg = defaultCode ∧ d.bg = defaultCode) := h
      rw [if_neg h, if_neg h', List.map_append, List.foldl_append]
      by_cases h1 : d.hasFg = true <;> by_cases h2 : d.hasBg = true <;> simp only [h1, h2, if_true, if_false, List.map_cons, List.map_nil, List.foldl_cons, List.foldl_nil, Bool.false_eq_true]
      · rw [(fg_piece d.fg (hf h1) l).2.2.2.2, (bg_piece d.bg (hb h2) _).2.2.2.2]
      · rw [(fg_piece d.fg (hf h1) l).2.2.2.2]
      · rw [(bg_piece d.bg (hb h2) _).2.2.2.2]
  rw [e1]
  generalize (if d.fg = 231 ∧ d.bg = 231 then ({} : Look) else { l with fg := if d.hasFg then colour d.fg else l.fg, bg := if d.hasBg then colour d.bg else l.bg }) = m
  have b1 : ∀ m : Look, act (value (Color.bs "1")) m = { m with bold := true } := fun _ => rfl
  have b2 : ∀ m : Look, act (value (Color.bs "22")) m = { m with bold := false } := fun _ => rfl
  have b3 : ∀ m : Look, act (value (Color.bs "4")) m = { m with underline := true } := fun _ => rfl
  have b4 : ∀ m : Look, act (value (Color.bs "24")) m = { m with underline := false } := fun _ => rfl
  by_cases h1 : d.hasBold = true <;> by_cases h2 : d.hasUnderline = true <;> by_cases h3 : d.bold = true <;> by_cases h4 : d.underline = true <;>
    simp only [h1, h2, h3, h4, if_true, if_false, List.map_cons, List.map_nil, List.foldl_cons, List.foldl_nil, Bool.false_eq_true, b1, b2, b3, b4]

theorem shows_nil {l m : Look} {t : List (Look × List Nat)} : Shows l [] t m ↔ t = [] ∧ m = l := by
  constructor
  · intro h
    generalize ho : ([] : List Out) = o at h
    cases h with
    | done => exact ⟨rfl, rfl⟩
    | text _ => simp at ho
    | seq _ _ => simp at ho
  · rintro ⟨rfl, rfl⟩
    exact .done

theorem shows_seq {l m : Look} {b : List Nat} {t : List (Look × List Nat)} : Shows l [.seq b] t m ↔ t = [] ∧ Sequence b l m := by
  constructor
  · intro h
    generalize ho : [Out.seq b] = o at h
    cases h with
    | done => simp at ho
    | text _ => simp at ho
    | seq h1 h2 =>
      simp at ho
      obtain ⟨rfl, rfl⟩ := ho
      obtain ⟨rfl, rfl⟩ := shows_nil.1 h2
      exact ⟨rfl, h1⟩
  · rintro ⟨rfl, h⟩
    exact .seq h .done

theorem shows_append {l m n : Look} {o o' : List Out} {t t' : List (Look × List Nat)} (h : Shows l o t m) (h' : Shows m o' t' n) : Shows l (o ++ o') (t ++ t') n := by
  induction h with
  | done => exact h'
  | text _ ih =>
    rw [List.append_assoc, List.append_assoc]
    exact .text (ih h')
  | seq h1 _ ih =>
    rw [List.append_assoc]
    exact .seq h1 (ih h')

/-- What `flush` writes changes the look to this one and no other. -/
theorem flush_after (p : Printer) (hf : p.delta.hasFg = true → Basic p.delta.fg) (hb : p.delta.hasBg = true → Basic p.delta.bg) (l m : Look) :
    Shows l p.flush.2 [] m ↔ m = after p.delta l := by
  have hg := pieces_good p.delta hf hb
  rw [flush_pieces, ← pieces_after p.delta hf hb]
  dsimp only
  by_cases hp : pieces p.delta = []
  · rw [hp]
    rw [if_neg (by simp [join]), shows_nil]
    simp
  · have hlen : (pieces p.delta).length ≤ 32 := by
      unfold pieces
      rw [List.length_append, List.length_append]
      have k : ∀ (c : Bool) (x : List Nat), (if c then [x] else []).length ≤ 1 := by
        intro c x
        cases c <;> simp
      have := k p.delta.hasBold (Color.bs (if p.delta.bold then "1" else "22"))
      have := k p.delta.hasUnderline (Color.bs (if p.delta.underline then "4" else "24"))
      split
      · simp only [List.length_singleton]
        omega
      · rw [List.length_append]
        have := k p.delta.hasFg (fgPiece p.delta.fg)
        have := k p.delta.hasBg (bgPiece p.delta.bg)
        omega
    obtain ⟨h1, h2⟩ := join_numbers (pieces p.delta) (fun x hx => ⟨(hg x hx).1, (hg x hx).2.1⟩) hlen hp
    rw [if_pos h1, shows_seq]
    unfold Sequence
    rw [h2]
    have h3 := acts_sgr ((pieces p.delta).map value) (by
      intro q hq
      obtain ⟨x, hx, rfl⟩ := List.mem_map.1 hq
      exact (hg x hx).2.2) l
    constructor
    · rintro ⟨-, ⟨h, -⟩ | ⟨-, h⟩⟩
      · exact absurd (List.map_eq_nil_iff.1 h) hp
      · exact sgr_unique h h3
    · rintro rfl
      exact ⟨rfl, .inr ⟨by simpa using hp, h3⟩⟩

theorem colour_default (c : BitVec 16) : colour c = .default ↔ c = 231 := by
  unfold colour
  by_cases h1 : c = 231
  · simp [h1]
  · rw [if_neg h1]
    split <;> simp <;> exact h1

theorem over_full {a : Attr} (h : Full a) (l : Look) : over l a = ⟨colour a.fg, colour a.bg, a.bold, a.underline, a.reverse⟩ := by
  obtain ⟨h1, h2, h3, h4, h5⟩ := h
  simp [over, h1, h2, h3, h4, h5]

theorem after_look (p : Printer) (hs : Full p.set) (hn : Full p.next) (l : Look) (hl : l.reverse = false) (hr : p.next.reverse = false)
    (hd : p.nodiff = true ∨ l = over {} p.set) : after p.delta l = over {} p.next ↔ p.nodiff = true ∨ ¬ Lost l (over {} p.next) := by
  rw [over_full hn]
  by_cases hnd : p.nodiff = true
  · simp only [hnd, true_or, iff_true]
    obtain ⟨i1, i2, i3, i4, i5⟩ := hn
    unfold after Printer.delta
    simp only [hnd, if_true, i1, i2, i3, i4]
    by_cases h : p.next.fg = 231 ∧ p.next.bg = 231
    · rw [if_pos h, h.1, h.2, hr]
      rfl
    · rw [if_neg h, hl, hr]
  · have hl' := hd.resolve_left hnd
    rw [over_full hs] at hl'
    subst hl'
    dsimp only at hl
    obtain ⟨i1, i2, i3, i4, i5⟩ := hn
    simp only [hnd, false_or]
    unfold after Printer.delta Lost
    rw [if_neg hnd]
    simp only [diff, i1, i2, i3, i4, Bool.true_and, Bool.not_eq_true', beq_eq_false_iff_ne, ne_eq, bne_iff_ne]
    rw [colour_default, colour_default]
    by_cases h : p.next.fg = 231 ∧ p.next.bg = 231
    · rw [if_pos h, h.1, h.2, hr]
      cases p.next.bold <;> cases p.set.bold <;> cases p.next.underline <;> cases p.set.underline <;> simp [colour]
    · rw [if_neg h, hl, hr]
      have e1 : (if ¬ p.next.fg = p.set.fg then colour p.next.fg else colour p.set.fg) = colour p.next.fg := by
        split
        · rfl
        · rename_i e
          have : p.next.fg = p.set.fg := by simpa using e
          rw [this]
      have e2 : (if ¬ p.next.bg = p.set.bg then colour p.next.bg else colour p.set.bg) = colour p.next.bg := by
        split
        · rfl
        · rename_i e
          have : p.next.bg = p.set.bg := by simpa using e
          rw [this]
      rw [e1, e2]
      have h' : ¬ (p.next.fg = 231 ∧ p.next.bg = 231 ∧ (p.set.bold = true ∧ p.next.bold = true ∨ p.set.underline = true ∧ p.next.underline = true)) := fun k => h ⟨k.1, k.2.1⟩
      simp only [h', not_false_eq_true, iff_true]
      cases p.next.bold <;> cases p.set.bold <;> cases p.next.underline <;> cases p.set.underline <;> simp

theorem delta_basic (p : Printer) (hf : Basic p.next.fg) (hb : Basic p.next.bg) : (p.delta.hasFg = true → Basic p.delta.fg) ∧ (p.delta.hasBg = true → Basic p.delta.bg) := by
  unfold Printer.delta
  split <;> exact ⟨fun _ => hf, fun _ => hb⟩

theorem flush_next (p : Printer) : p.flush.1 = { p with set := p.next } := rfl

theorem flush_lost (p : Printer) (hs : Full p.set) (hn : Full p.next) (hf : (over {} p.next).fg.Basic) (hb : (over {} p.next).bg.Basic) (l : Look) (hl : l.reverse = false) (hr : (over {} p.next).reverse = false)
    (hd : p.nodiff = true ∨ l = over {} p.set) : Shows l p.flush.2 [] (over {} p.next) ↔ p.nodiff = true ∨ ¬ Lost l (over {} p.next) := by
  have e := over_full hn {}
  rw [e] at hf hb hr
  have := delta_basic p ((basic_iff _).1 hf) ((basic_iff _).1 hb)
  rw [flush_after p this.1 this.2, ← after_look p hs hn l hl hr hd]
  exact eq_comm

theorem tame_lost {l m : Look} (h : Tame m) : ¬ Lost l m := by
  rintro ⟨h1, h2, h3⟩
  have := h.2.2.2 h1 h2
  rw [this.1, this.2] at h3
  simp at h3

/-- The terminal looks like `t`, and `l` is wanted next. -/
structure Inv (p : Printer) (t l : Look) : Prop where
  set : Full p.set
  next : Full p.next
  isSet : t = over {} p.set
  isNext : l = over {} p.next
  rev : t.reverse = false
  tame : Tame l

theorem Inv.flush {p : Printer} {t l : Look} (h : Inv p t l) : Shows t p.flush.2 [] l ∧ Inv p.flush.1 l l := by
  have ht := h.tame
  have e := h.isNext
  have := (flush_lost p h.set h.next (e ▸ ht.1) (e ▸ ht.2.1) t h.rev (e ▸ ht.2.2.1) (.inr h.isSet)).2 (.inr (e ▸ tame_lost ht))
  rw [← e] at this
  exact ⟨this, h.next, h.next, e, e, ht.2.2.1, ht⟩

theorem over_reset {a : Attr} (h : Full a) (l : Look) : over l a = over {} a := by rw [over_full h, over_full h]

theorem Inv.setAttributes {p : Printer} {t l : Look} (h : Inv p t l) (a : Attr) (ha : Tame (over l a)) : Inv (p.setAttributes a).1 t (over l a) := by
  refine ⟨h.set, merge_full h.next a, h.isSet, ?_, h.rev, ha⟩
  rw [h.isNext, Printer.setAttributes, over_merge]

theorem Inv.print {p : Printer} {t l : Look} (h : Inv p t l) (d : List Nat) : ∃ t', Shows t (p.print d).2 (if d = [] then [] else [(l, d)]) t' ∧ Inv (p.print d).1 t' l ∧ (d ≠ [] → t' = l) := by
  unfold Printer.print
  by_cases hd : d = []
  · rw [if_pos hd, if_pos hd]
    exact ⟨t, .done, h, fun k => absurd hd k⟩
  · rw [if_neg hd, if_neg hd]
    by_cases he : p.next.eq p.set = true
    · simp only [he]
      have := (eq_full h.next h.set).1 he
      have e : t = l := by rw [h.isSet, h.isNext, this]
      refine ⟨t, ?_, h, fun _ => e⟩
      rw [← e]
      exact .text .done
    · simp only [he]
      obtain ⟨h1, h2⟩ := h.flush
      exact ⟨l, shows_append h1 (.text .done), h2, fun _ => rfl⟩

theorem print_next (p : Printer) (d : List Nat) : (p.print d).1.next = p.next := by
  unfold Printer.print
  split
  · rfl
  · dsimp only
    split <;> rfl

theorem print_nodiff (p : Printer) (d : List Nat) : (p.print d).1.nodiff = p.nodiff := by
  unfold Printer.print
  split
  · rfl
  · dsimp only
    split <;> rfl

theorem Inv.back {p : Printer} {t l : Look} (h : Inv p t l) {prev : Attr} (hp : Full prev) {m : Look} (hm : Tame m) (e : m = over {} prev) :
    Inv (p.setAttributes prev).1 t m := by
  refine ⟨h.set, merge_full h.next prev, h.isSet, ?_, h.rev, hm⟩
  rw [Printer.setAttributes, over_merge, e]
  exact (over_reset hp _).symm

theorem Inv.printAttr {p : Printer} {t l : Look} (h : Inv p t l) (a : Attr) (ha : Tame (over l a)) (d : List Nat) :
    Shows t (p.printAttr a d).2 (if d = [] then [] else [(over l a, d)]) l ∧ Inv (p.printAttr a d).1 l l := by
  have h1 := h.setAttributes a ha
  obtain ⟨t', h2, h3, -⟩ := h1.print d
  have h4 := h3.back h.next h.tame h.isNext
  obtain ⟨h5, h6⟩ := h4.flush
  have := shows_append h2 h5
  rw [List.append_nil] at this
  exact ⟨this, h6⟩

theorem tame_plain : Tame {} := ⟨trivial, trivial, rfl, fun _ _ => ⟨rfl, rfl⟩⟩

theorem merge_self {a : Attr} (h : Full a) : merge a a = a := by
  obtain ⟨h1, h2, h3, h4, h5⟩ := h
  apply Attr.ext'
  · rw [merge_fg]; simp
  · rw [merge_bg]; simp
  · rw [merge_bold]; simp
  · rw [merge_underline]; simp
  · rw [merge_reverse]; simp
  all_goals simp [merge]

/-- The look comes back after text with a sequence of its own. -/
theorem restore {q : Printer} {l l' : Look} (h2 : Inv q l l) (hc : l = {} ∨ q.nodiff = true ∧ l'.reverse = false) : Shows l' q.flush.2 [] l := by
  have ht := h2.tame
  rw [h2.isNext] at ht
  have hb := delta_basic q ((basic_iff _).1 (by have := ht.1; rw [over_full h2.next] at this; exact this)) ((basic_iff _).1 (by have := ht.2.1; rw [over_full h2.next] at this; exact this))
  rcases hc with hc | hc
  · rw [flush_after q hb.1 hb.2]
    have hn := h2.isNext
    rw [over_full h2.next, hc] at hn
    have hfg : q.next.fg = 231 := (colour_default _).1 (congrArg Look.fg hn).symm
    have hbg : q.next.bg = 231 := (colour_default _).1 (congrArg Look.bg hn).symm
    have hbo : q.next.bold = false := (congrArg Look.bold hn).symm
    have hun : q.next.underline = false := (congrArg Look.underline hn).symm
    have k : q.delta.fg = 231 ∧ q.delta.bg = 231 ∧ q.delta.bold = false ∧ q.delta.underline = false := by
      unfold Printer.delta
      split
      · exact ⟨hfg, hbg, hbo, hun⟩
      · exact ⟨hfg, hbg, hbo, hun⟩
    rw [hc]
    unfold after
    rw [if_pos ⟨k.1, k.2.1⟩, k.2.2.1, k.2.2.2]
    simp
  · have := (flush_lost q h2.set h2.next ht.1 ht.2.1 l' hc.2 ht.2.2.1 (.inl hc.1)).2 (.inl hc.1)
    rw [← h2.isNext] at this
    exact this

theorem Inv.printText {p : Printer} {t l : Look} (h : Inv p t l) (s d : List Nat) {l' : Look} (hs : Sequence s l l') (hc : l = {} ∨ p.nodiff = true ∧ l'.reverse = false) :
    Shows t (p.printText s d).2 (if d = [] then [] else [(l', d)]) l ∧ Inv (p.printText s d).1 l l ∧ (p.printText s d).1.nodiff = true := by
  -- the first flush
  obtain ⟨q, o, hq, h1, h2, hset, hnd⟩ : ∃ q o, (if !p.next.eq p.set then p.flush else (p, [])) = (q, o) ∧ Shows t o [] l ∧ Inv q l l ∧ q.set = q.next ∧ q.next = p.next ∧ q.nodiff = p.nodiff := by
    by_cases he : p.next.eq p.set = true
    · have := (eq_full h.next h.set).1 he
      have e : t = l := by rw [h.isSet, h.isNext, this]
      refine ⟨p, [], by simp [he], ?_, e ▸ h, this.symm, rfl, rfl⟩
      rw [e]
      exact .done
    · obtain ⟨h1, h2⟩ := h.flush
      exact ⟨p.flush.1, p.flush.2, by simp [he], h1, h2, rfl, rfl, rfl⟩
  -- nothing more is flushed before the text
  have hp : q.print d = (q, if d = [] then [] else [.text d]) := by
    unfold Printer.print
    by_cases hd : d = []
    · rw [if_pos hd, if_pos hd]
    · have : q.next.eq q.set = true := (eq_full h2.next h2.set).2 hset.symm
      rw [if_neg hd, if_neg hd]
      simp [this]
  have hback : (q.setAttributes p.next).1 = q := by
    rw [Printer.setAttributes, hnd.1]
    dsimp only
    rw [← hnd.1, merge_self h2.next]
  have e : p.printText s d = ({ q.flush.1 with nodiff := true }, o ++ [.seq s] ++ (if d = [] then [] else [.text d]) ++ q.flush.2) := by
    unfold Printer.printText
    rw [hq]
    dsimp only
    rw [hp]
    dsimp only
    rw [hback]
  rw [e]
  dsimp only
  have hfl := restore h2 (l' := l') (hc.imp id fun k => ⟨hnd.2.trans k.1, k.2⟩)
  refine ⟨?_, ⟨h2.next, h2.next, h2.isNext, h2.isNext, h2.rev, h2.tame⟩, rfl⟩
  have m1 : Shows l ([.seq s] ++ (if d = [] then [] else [.text d])) (if d = [] then [] else [(l', d)]) l' := by
    refine .seq hs ?_
    by_cases hd : d = []
    · rw [if_pos hd, if_pos hd]
      exact .done
    · rw [if_neg hd, if_neg hd]
      exact .text .done
  have := shows_append (shows_append h1 m1) hfl
  rw [List.append_nil, List.nil_append] at this
  rw [List.append_assoc o]
  exact this

theorem setAttributes_nodiff (p : Printer) (a : Attr) : (p.setAttributes a).1.nodiff = p.nodiff := rfl

theorem printAttr_nodiff (p : Printer) (a : Attr) (d : List Nat) : (p.printAttr a d).1.nodiff = p.nodiff := by
  unfold Printer.printAttr
  dsimp only
  rw [flush_next]
  dsimp only [Printer.setAttributes]
  rw [print_nodiff]

theorem sequence_unique {b : List Nat} {l m m' : Look} (h : Sequence b l m) (h' : Sequence b l m') : m = m' := by
  rw [(sequence_iff b l m).2 h, (sequence_iff b l m').2 h']

theorem perform_shows {l m : Look} {ops : List Op} {texts : List (Look × List Nat)} (hw : Wants l ops texts m) : ∀ (p : Printer) (t : Look), Inv p t l → AllTame p.nodiff l ops →
    ∃ e, Shows t (perform p ops).2 texts e ∧ Inv (perform p ops).1 e m := by
  induction hw with
  | done => intro p t h _; exact ⟨t, .done, h⟩
  | @set l a r texts m _ ih =>
    intro p t h ha
    generalize ho : ([.set a] ++ r : List Op) = ops at ha
    cases ha with
    | set h1 h2 =>
      simp at ho
      obtain ⟨rfl, rfl⟩ := ho
      exact ih _ t (h.setAttributes _ h1) h2
    | _ => simp at ho
  | @print l d r texts m _ ih =>
    intro p t h ha
    generalize ho : ([.print d] ++ r : List Op) = ops at ha
    cases ha with
    | print h2 =>
      simp at ho
      obtain ⟨rfl, rfl⟩ := ho
      obtain ⟨t', h3, h4, -⟩ := h.print d
      obtain ⟨e, h5, h6⟩ := ih _ t' h4 (by rw [print_nodiff]; exact h2)
      exact ⟨e, shows_append h3 h5, h6⟩
    | _ => simp at ho
  | @printAttr l a d r texts m _ ih =>
    intro p t h ha
    generalize ho : ([.printAttr a d] ++ r : List Op) = ops at ha
    cases ha with
    | printAttr h1 h2 =>
      simp at ho
      obtain ⟨⟨rfl, rfl⟩, rfl⟩ := ho
      obtain ⟨h3, h4⟩ := h.printAttr a h1 d
      obtain ⟨e, h5, h6⟩ := ih _ l h4 (by rw [printAttr_nodiff]; exact h2)
      exact ⟨e, shows_append h3 h5, h6⟩
    | _ => simp at ho
  | @printText l s d l' r texts m hs _ ih =>
    intro p t h ha
    generalize ho : ([.printText s d] ++ r : List Op) = ops at ha
    cases ha with
    | @printText _ _ _ _ l'' _ h0 h1 h2 =>
      simp at ho
      obtain ⟨⟨rfl, rfl⟩, rfl⟩ := ho
      obtain rfl := sequence_unique hs h0
      obtain ⟨h3, h4, h7⟩ := h.printText s d hs h1
      obtain ⟨e, h5, h6⟩ := ih _ l h4 (by rw [h7]; exact h2)
      exact ⟨e, shows_append h3 h5, h6⟩
    | _ => simp at ho

theorem inv_start : Inv {} {} {} := ⟨defaults_full, defaults_full, rfl, rfl, rfl, tame_plain⟩

end Clink.Attributes
