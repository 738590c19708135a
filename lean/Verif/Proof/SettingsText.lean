import Verif.Spec.Settings
import Verif.Proof.Tokeniser
import Verif.Proof.Utf

/-! Lines of the settings file. -/

namespace Clink.Settings

open Spec
open Color (bs)

theorem utf8_append {a b : List Nat} (ha : Utf8 a) (hb : Utf8 b) : Utf8 (a ++ b) := by
  induction ha with
  | nil => exact hb
  | cons hc h ih => rw [List.append_assoc]; exact .cons hc ih

theorem utf8_ascii {l : List Nat} (h : ∀ c ∈ l, 0 < c ∧ c < 128) : Utf8 l := by
  induction l with
  | nil => exact .nil
  | cons c l ih =>
    have hc := h c (by simp)
    have e : Utf.specUtf8 c = [c] := by unfold Utf.specUtf8; rw [if_pos (by omega)]
    have := Utf8.cons (c := c) ⟨hc.1, by omega, by omega⟩ (ih fun x hx => h x (List.mem_cons_of_mem _ hx))
    rwa [e] at this

theorem lineOk_append {a b : List Nat} (ha : LineOk a) (hb : LineOk b) : LineOk (a ++ b) :=
  ⟨utf8_append ha.utf8 hb.utf8, by simp [ha.nl, hb.nl], by simp [ha.cr, hb.cr]⟩

theorem lineOk_ascii {l : List Nat} (h : ∀ c ∈ l, 32 ≤ c ∧ c < 128) : LineOk l :=
  ⟨utf8_ascii fun c hc => by have := h c hc; omega, fun hc => by have := h 10 hc; omega, fun hc => by have := h 13 hc; omega⟩

theorem stop_line {w t : List Nat} (hw : LineOk w) (ht : ∀ c, t.head? = some c → c = 10 ∨ c = 13) : Tok.stop Utf.iter8 [10, 13] (w ++ t) = t := by
  obtain ⟨h, h10, h13⟩ := hw
  induction h with
  | nil =>
    cases t with
    | nil => rw [List.nil_append, Tok.stop, Tok.peek_nil, dif_pos rfl]
    | cons c t =>
      rcases ht c rfl with rfl | rfl <;> rw [List.nil_append, Tok.stop, Tok.peek_ascii (by decide), dif_neg (by decide), if_pos (by decide)]
  | @cons c l hc h ih =>
    simp only [List.mem_append, not_or] at h10 h13
    have e := Utf.next8_spec c hc.1 hc.2.1 (l ++ t)
    have e1 : Utf.iter8.peek (Utf.specUtf8 c ++ (l ++ t)) = c := congrArg Prod.fst e
    have e2 : Utf.iter8.adv (Utf.specUtf8 c ++ (l ++ t)) = l ++ t := congrArg Prod.snd e
    rw [List.append_assoc, Tok.stop, e1, e2, dif_neg (by have := hc.1; omega), if_neg]
    · exact ih h10.2 h13.2
    · intro hm
      have : c = 10 ∨ c = 13 := by simpa using hm
      rcases this with rfl | rfl
      · exact h10.1 (by decide)
      · exact h13.1 (by decide)

theorem skip_line {w t : List Nat} (hw : LineOk w) (hne : w ≠ []) : Tok.skip Utf.iter8 [10, 13] (w ++ t) = w ++ t := by
  obtain ⟨h, h10, h13⟩ := hw
  cases h with
  | nil => exact absurd rfl hne
  | @cons c l hc h =>
    simp only [List.mem_append, not_or] at h10 h13
    have e := Utf.next8_spec c hc.1 hc.2.1 (l ++ t)
    have e1 : Utf.iter8.peek (Utf.specUtf8 c ++ (l ++ t)) = c := congrArg Prod.fst e
    rw [List.append_assoc, Tok.skip, e1, dif_neg (by have := hc.1; omega), if_neg]
    intro hm
    have : c = 10 ∨ c = 13 := by simpa using hm
    rcases this with rfl | rfl
    · exact h10.1 (by decide)
    · exact h13.1 (by decide)

theorem skip_break {c : Nat} (hc : c = 10 ∨ c = 13) (t : List Nat) : Tok.skip Utf.iter8 [10, 13] (c :: t) = Tok.skip Utf.iter8 [10, 13] t := by
  have h : 0 < c ∧ c < 128 := by omega
  rw [Tok.skip, Tok.peek_ascii h, Tok.adv_ascii h, dif_neg (by omega), if_pos (by simpa using hc)]

theorem tokens_break {c : Nat} (hc : c = 10 ∨ c = 13) (t : List Nat) : Tok.tokens Utf.iter8 [10, 13] (c :: t) = Tok.tokens Utf.iter8 [10, 13] t := by
  rw [Tok.tokens_eq, Tok.tokens_eq _ _ t]
  unfold Tok.next
  rw [skip_break hc]

theorem tokens_nil : Tok.tokens Utf.iter8 [10, 13] [] = [] := by
  rw [Tok.tokens_eq]
  have : Tok.next Utf.iter8 [10, 13] [] = none := by
    unfold Tok.next
    have e : Tok.skip Utf.iter8 [10, 13] [] = [] := by rw [Tok.skip, Tok.peek_nil, dif_pos rfl]
    have e' : Tok.stop Utf.iter8 [10, 13] [] = [] := by rw [Tok.stop, Tok.peek_nil, dif_pos rfl]
    simp only [e, e']
    rfl
  rw [this]

theorem tokens_line {w t : List Nat} (hw : LineOk w) (hne : w ≠ []) :
    Tok.tokens Utf.iter8 [10, 13] (w ++ 13 :: 10 :: t) = w :: Tok.tokens Utf.iter8 [10, 13] t := by
  rw [Tok.tokens_eq]
  have : Tok.next Utf.iter8 [10, 13] (w ++ 13 :: 10 :: t) = some (w, 13 :: 10 :: t) := by
    unfold Tok.next
    simp only [skip_line hw hne, stop_line hw (t := 13 :: 10 :: t) (fun c hc => by cases hc; exact .inr rfl)]
    rw [if_neg (by simp; exact hne)]
    simp
  rw [this]
  simp only
  rw [tokens_break (.inr rfl), tokens_break (.inl rfl)]

/-- Lines, each with its end. -/
def unlines (ls : List (List Nat)) : List Nat := ls.flatMap (· ++ [10])

theorem unlines_append (a b : List (List Nat)) : unlines (a ++ b) = unlines a ++ unlines b := List.flatMap_append

theorem unlines_cons (a : List Nat) (b : List (List Nat)) : unlines (a :: b) = a ++ 10 :: unlines b := by
  simp [unlines]

theorem textMode_append (a b : List Nat) : textMode (a ++ b) = textMode a ++ textMode b := List.flatMap_append

theorem textMode_line {w : List Nat} (h : 10 ∉ w) : textMode w = w := by
  induction w with
  | nil => rfl
  | cons c w ih =>
    simp only [List.mem_cons, not_or] at h
    show (if c = 10 then [13, 10] else [c]) ++ textMode w = _
    rw [if_neg (Ne.symm h.1), ih h.2]
    rfl

theorem tokens_unlines {ls : List (List Nat)} (h : ∀ l ∈ ls, LineOk l) :
    Tok.tokens Utf.iter8 [10, 13] (textMode (unlines ls)) = ls.filter (· != []) := by
  induction ls with
  | nil => exact tokens_nil
  | cons l ls ih =>
    have hl := h l (by simp)
    have ih := ih fun x hx => h x (List.mem_cons_of_mem _ hx)
    rw [unlines_cons, textMode_append, textMode_line hl.nl]
    show Tok.tokens Utf.iter8 [10, 13] (l ++ 13 :: 10 :: textMode (unlines ls)) = _
    by_cases hne : l = []
    · subst hne
      rw [List.nil_append, tokens_break (.inr rfl), tokens_break (.inl rfl), ih]
      rfl
    · rw [tokens_line hl hne, ih, List.filter_cons_of_pos (by simpa using hne)]

/-! ### Names and values -/

theorem isSpace_iff (c : Nat) : isSpace c = true ↔ Space c := by
  unfold isSpace Space
  simp

theorem dropWhile_lead {v : List Nat} (h : ∀ c, v.head? = some c → ¬ Space c) : v.dropWhile isSpace = v := by
  cases v with
  | nil => rfl
  | cons c v => rw [List.dropWhile_cons_of_neg (by rw [isSpace_iff]; exact h c rfl)]

theorem trim_trail {v : List Nat} (h : ∀ c, v.getLast? = some c → ¬ Space c) : (v.reverse.dropWhile isSpace).reverse = v := by
  rw [dropWhile_lead (by simpa using h), List.reverse_reverse]

/-- The line of a setting. -/
def nameLine (name value : List Nat) : List Nat := name ++ bs " = " ++ value

theorem nameLine_ok {name value : List Nat} (hn : NameOk name) (hv : ValueOk value) : LineOk (nameLine name value) :=
  lineOk_append (lineOk_append hn.toLineOk (lineOk_ascii (by decide))) hv.toLineOk

theorem head_append {a : List Nat} (b : List Nat) (h : a ≠ []) : (a ++ b).head? = a.head? := by
  cases a with
  | nil => exact absurd rfl h
  | cons c a => rfl

theorem takeWhile_stop (a b : List Nat) (c : Nat) (h : c ∉ a) : (a ++ c :: b).takeWhile (· != c) = a ∧ (a ++ c :: b).dropWhile (· != c) = c :: b := by
  have hp : ∀ x ∈ a, (x != c) = true := by
    intro x hx
    rw [bne_iff_ne]
    rintro rfl
    exact h hx
  constructor
  · rw [List.takeWhile_append_of_pos hp, List.takeWhile_cons_of_neg (by simp), List.append_nil]
  · rw [List.dropWhile_append_of_pos hp, List.dropWhile_cons_of_neg (by simp)]

theorem split_nameLine (maybe : Bool) {name value : List Nat} (hn : NameOk name) (hv : ValueOk value) :
    ((nameLine name value).dropWhile isSpace).head? ≠ some 35 ∧ splitLine maybe ((nameLine name value).dropWhile isSpace) = some (name, value) := by
  have hval : (32 :: value).dropWhile isSpace = value := by
    rw [List.dropWhile_cons_of_pos (by decide), dropWhile_lead hv.lead]
  by_cases he : name = []
  · subst he
    have e : (nameLine [] value).dropWhile isSpace = 61 :: 32 :: value := by
      show (32 :: 61 :: 32 :: value).dropWhile isSpace = _
      rw [List.dropWhile_cons_of_pos (by decide), List.dropWhile_cons_of_neg (by decide)]
    rw [e]
    refine ⟨by simp, ?_⟩
    unfold splitLine
    rw [if_pos (by simp)]
    have t := takeWhile_stop [] (32 :: value) 61 (by simp)
    rw [List.nil_append] at t
    simp only [t.1, t.2]
    rw [List.drop_one, List.tail_cons, hval]
    rfl
  · have e : (nameLine name value).dropWhile isSpace = (name ++ [32]) ++ 61 :: 32 :: value := by
      rw [show (name ++ [32]) ++ 61 :: 32 :: value = nameLine name value by simp [nameLine, bs]]
      apply dropWhile_lead
      intro c hc
      apply hn.lead c
      unfold nameLine at hc
      rw [List.append_assoc, head_append _ he] at hc
      exact hc
    rw [e]
    constructor
    · rw [List.append_assoc, head_append _ he]
      exact hn.hash
    · unfold splitLine
      rw [if_pos (by simp)]
      have t := takeWhile_stop (name ++ [32]) (32 :: value) 61 (by simp [hn.eq])
      simp only [t.1, t.2]
      rw [List.drop_one, List.tail_cons, hval, List.reverse_append]
      rw [show [32].reverse ++ name.reverse = 32 :: name.reverse from rfl, List.dropWhile_cons_of_pos (by decide), trim_trail hn.trail]

/-! ### Reading lines -/

theorem loadLines_clear (maybe : Bool) (c : List Nat) (ls : List (List Nat)) : loadLines maybe false c ls = loadLines maybe false [] ls := by
  cases ls with
  | nil => rfl
  | cons l ls => simp only [loadLines]; rfl

theorem loadLines_comment (maybe was : Bool) (c : List Nat) {l : List Nat} (hl : l.head? = some 35) (ls : List (List Nat)) :
    loadLines maybe was c (l :: ls) = loadLines maybe true ((if was then c else []) ++ l ++ [10]) ls := by
  have : l.dropWhile isSpace = l := dropWhile_lead (by rw [hl]; intro c hc; cases hc; unfold Space; decide)
  simp only [loadLines, this]
  rw [if_pos hl]

theorem loadLines_name (maybe was : Bool) (c : List Nat) {name value : List Nat} (hn : NameOk name) (hv : ValueOk value) (ls : List (List Nat)) :
    loadLines maybe was c (nameLine name value :: ls) = ⟨name, autoupdate name value, if was then c else []⟩ :: loadLines maybe false [] ls := by
  obtain ⟨h1, h2⟩ := split_nameLine maybe hn hv
  simp only [loadLines, h2]
  rw [if_neg h1, loadLines_clear]

theorem loadLines_comments (maybe : Bool) {cs : List (List Nat)} (h : ∀ l ∈ cs, l.head? = some 35) {name value : List Nat} (hn : NameOk name)
    (hv : ValueOk value) (ls : List (List Nat)) :
    loadLines maybe false [] (cs ++ nameLine name value :: ls) = ⟨name, autoupdate name value, unlines cs⟩ :: loadLines maybe false [] ls := by
  have key : ∀ (cs : List (List Nat)) (c : List Nat), (∀ l ∈ cs, l.head? = some 35) →
      loadLines maybe true c (cs ++ nameLine name value :: ls) = ⟨name, autoupdate name value, c ++ unlines cs⟩ :: loadLines maybe false [] ls := by
    intro cs
    induction cs with
    | nil =>
      intro c _
      rw [List.nil_append, loadLines_name maybe true c hn hv]
      simp [unlines]
    | cons l cs ih =>
      intro c h
      rw [List.cons_append, loadLines_comment maybe true c (h l (by simp)), ih _ fun x hx => h x (List.mem_cons_of_mem _ hx), unlines_cons]
      simp
  cases cs with
  | nil => exact loadLines_name maybe false [] hn hv ls
  | cons l cs =>
    rw [List.cons_append, loadLines_comment maybe false [] (h l (by simp)), key cs _ fun x hx => h x (List.mem_cons_of_mem _ hx), unlines_cons]
    simp

theorem commentOk_lines {c : List Nat} (h : CommentOk c) : ∃ cs, c = unlines cs ∧ (∀ l ∈ cs, LineOk l) ∧ ∀ l ∈ cs, l.head? = some 35 := by
  induction h with
  | nil => exact ⟨[], rfl, by simp, by simp⟩
  | @cons l t h hl ht ih =>
    obtain ⟨cs, rfl, h1, h2⟩ := ih
    exact ⟨l :: cs, (unlines_cons l cs).symm, by simpa using ⟨h, h1⟩, by simpa using ⟨hl, h2⟩⟩

end Clink.Settings
