import Verif.Model.Tokeniser
import Verif.Spec.Color

/-! Tokens of ASCII text. -/

namespace Clink.Tok

open Clink.Color.Spec (Words Ascii)

theorem next8_ascii (c : Nat) (l : List Nat) (h : 0 < c ∧ c < 128) : Utf.next8 (c :: l) = (c, l) := by
  have h1 : ∀ c < 128, (0 <<< 6) ||| (c &&& 0x7f) = c ∧ (c &&& 0xc0) < 0xc0 := by decide +kernel
  obtain ⟨e1, e2⟩ := h1 c h.2
  unfold Utf.next8 Utf.next8Loop
  rw [if_neg (by omega)]
  simp only [e1, e2, if_true]
  simp

theorem peek_ascii {c : Nat} {l : List Nat} (h : 0 < c ∧ c < 128) : Utf.iter8.peek (c :: l) = c := by
  show (Utf.next8 (c :: l)).1 = c
  rw [next8_ascii c l h]

theorem adv_ascii {c : Nat} {l : List Nat} (h : 0 < c ∧ c < 128) : Utf.iter8.adv (c :: l) = l := by
  show (Utf.next8 (c :: l)).2 = l
  rw [next8_ascii c l h]

theorem skip_sep {sep : Nat} {l : List Nat} (h : 0 < sep ∧ sep < 128) : skip Utf.iter8 [sep] (sep :: l) = skip Utf.iter8 [sep] l := by
  rw [skip, peek_ascii h, adv_ascii h]
  rw [dif_neg (by omega), if_pos (by simp)]

theorem skip_word {sep c : Nat} {l : List Nat} (h : 0 < c ∧ c < 128) (hc : c ≠ sep) : skip Utf.iter8 [sep] (c :: l) = c :: l := by
  rw [skip, peek_ascii h]
  rw [dif_neg (by omega), if_neg (by simpa using hc)]

theorem peek_nil : Utf.iter8.peek [] = 0 := rfl

theorem stop_word {sep : Nat} (hsep : 0 < sep ∧ sep < 128) (w t : List Nat) (ha : Ascii w) (hw : sep ∉ w) (ht : t = [] ∨ t.head? = some sep) :
    stop Utf.iter8 [sep] (w ++ t) = t := by
  induction w with
  | nil =>
    rcases ht with rfl | ht
    · rw [List.nil_append, stop, peek_nil, dif_pos rfl]
    · cases t with
      | nil => cases ht
      | cons c t =>
        cases ht
        rw [List.nil_append, stop, peek_ascii hsep, dif_neg (by omega), if_pos (by simp)]
  | cons c w ih =>
    have hc := ha c (by simp)
    simp only [List.mem_cons, not_or] at hw
    rw [List.cons_append, stop, peek_ascii hc, adv_ascii hc, dif_neg (by omega), if_neg (by simp; exact Ne.symm hw.1)]
    exact ih (fun x hx => ha x (List.mem_cons_of_mem _ hx)) hw.2

theorem tokens_eq (it : Iter) (delims l : List Nat) :
    tokens it delims l = match next it delims l with
      | none => []
      | some r => r.1 :: tokens it delims r.2 := by
  rw [tokens]
  split
  · rename_i h; rw [h]
  · rename_i w e h
    show w :: tokens it delims e = _
    rw [h]

theorem tokens_words {sep : Nat} (hsep : 0 < sep ∧ sep < 128) {l : List Nat} {ws : List (List Nat)} (h : Words sep l ws) (ha : Ascii l) :
    tokens Utf.iter8 [sep] l = ws := by
  induction h with
  | nil =>
    rw [tokens_eq]
    have : next Utf.iter8 [sep] [] = none := by
      unfold next
      have e : skip Utf.iter8 [sep] [] = [] := by rw [skip, peek_nil, dif_pos rfl]
      have e' : stop Utf.iter8 [sep] [] = [] := by rw [stop, peek_nil, dif_pos rfl]
      simp only [e, e']
      rfl
    rw [this]
  | @sep t ws h ih =>
    rw [tokens_eq, ← ih fun x hx => ha x (List.mem_cons_of_mem _ hx), tokens_eq]
    unfold next
    rw [skip_sep hsep]
  | @word w t ws hne hw ht h ih =>
    rw [tokens_eq]
    have hw' : Ascii w := fun x hx => ha x (List.mem_append_left _ hx)
    have e : skip Utf.iter8 [sep] (w ++ t) = w ++ t := by
      cases w with
      | nil => exact absurd rfl hne
      | cons c w =>
        simp only [List.mem_cons, not_or] at hw
        exact skip_word (hw' c (by simp)) (Ne.symm hw.1)
    have e' := stop_word hsep w t hw' hw ht
    have : next Utf.iter8 [sep] (w ++ t) = some (w, t) := by
      unfold next
      simp only [e, e']
      have : 0 < w.length := List.length_pos_iff.2 hne
      rw [if_neg (by simp; exact hne)]
      simp
    rw [this]
    simp only
    rw [ih fun x hx => ha x (List.mem_append_right _ hx)]

theorem words_one {sep : Nat} {w : List Nat} (hne : w ≠ []) (hw : sep ∉ w) : Words sep w [w] := by
  have := Words.word (t := []) hne hw (.inl rfl) .nil
  rwa [List.append_nil] at this

theorem words_cons {sep : Nat} {w t : List Nat} {ws : List (List Nat)} (hne : w ≠ []) (hw : sep ∉ w) (h : Words sep t ws) :
    Words sep (w ++ sep :: t) (w :: ws) := .word hne hw (.inr rfl) (.sep h)

end Clink.Tok
