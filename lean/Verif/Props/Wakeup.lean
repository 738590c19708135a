import Verif.Proof.Wakeup

/-! C43: wake-up characters. -/

namespace Clink.Wakeup

open Spec

theorem without_eq {mask : Nat} {t : List Nat} (h : (without mask t).length = t.length) : without mask t = t :=
  List.filter_eq_self.2 (List.length_filter_eq_length_iff.1 h)

/-- With a limit that reaches the end of the text: no access outside of the memory, the text that is left is the text
without its wake-up characters, and nothing behind the text changes. -/
theorem C43_strip (mask max : Nat) (text rest : List Nat) (h0 : 0 ∉ text) (hm : text.length ≤ max) :
    ∃ tail, strip mask max (text ++ 0 :: rest) = some (without mask text ++ 0 :: tail) ∧ Holds (without mask text ++ 0 :: tail) (without mask text) ∧
      (without mask text ++ 0 :: tail).length = (text ++ 0 :: rest).length ∧ ∃ k, tail = k ++ rest ∨ tail = k ++ 0 :: rest := by
  have hh : ∀ tail, Holds (without mask text ++ 0 :: tail) (without mask text) := fun tail =>
    ⟨fun h => h0 (List.mem_filter.1 h).1, tail, rfl⟩
  by_cases hz : max = 0
  · have : text = [] := List.length_eq_zero_iff.1 (by omega)
    subst this
    exact ⟨rest, by simp [strip, hz, without], hh _, rfl, [], .inl rfl⟩
  · obtain ⟨j, hj, hle, he⟩ := stripLoop_eq mask max [] [] text (0 :: rest) h0 (.inr ⟨rest, rfl⟩)
    rw [List.take_of_length_le hm] at hj hle he
    rw [List.drop_of_length_le hm] at he
    simp only [List.nil_append, List.length_nil, Nat.zero_add, List.append_nil] at he hj
    simp only [strip, hz, if_false, he]
    by_cases hq : (without mask text).length = text.length
    · rw [if_neg (by omega)]
      have hj0 : j = [] := List.length_eq_zero_iff.1 (by omega)
      subst hj0
      refine ⟨rest, by simp, hh _, by simp; omega, [], .inl rfl⟩
    · rw [if_pos (by omega), if_pos (by simp; omega)]
      cases j with
      | nil => simp at hj; omega
      | cons x j =>
        refine ⟨j ++ 0 :: rest, by rw [List.append_assoc, List.set_append_right _ _ (Nat.le_refl _)]; simp, hh _, ?_, j, .inr rfl⟩
        simp at hj ⊢; omega

/-- The function for strings. -/
theorem C43_strip_str (mask : Nat) (mem text : List Nat) (h : Holds mem text) :
    ∃ mem', stripStr mask mem = some mem' ∧ Holds mem' (without mask text) ∧ mem'.length = mem.length := by
  obtain ⟨h0, rest, rfl⟩ := h
  have : strLen (text ++ 0 :: rest) = some text.length := by
    unfold strLen
    rw [if_pos (by simp), List.idxOf_append, if_neg h0]; simp
  obtain ⟨tail, he, hh, hl, -⟩ := C43_strip mask text.length text rest h0 (Nat.le_refl _)
  exact ⟨_, by rw [stripStr, this, Option.bind_some, he], hh, hl⟩

/-- Exactly the selected control characters are gone, the others stay in order; never longer. -/
theorem C43_without (mask : Nat) (text : List Nat) :
    (without mask text).Sublist text ∧ (∀ c, (without mask text).count c = if WakeUp mask c then 0 else text.count c) ∧
      (without mask text).length ≤ text.length := by
  refine ⟨List.filter_sublist, fun c => ?_, List.length_filter_le _ _⟩
  split
  · rename_i h
    exact List.count_eq_zero.2 fun hc => by have := (List.mem_filter.1 hc).2; simp_all
  · rename_i h
    unfold without
    rw [List.count_filter (by simpa using h)]

/-- Stripping again changes nothing at all. -/
theorem C43_again (mask : Nat) (mem text mem' : List Nat) (h : Holds mem text) (he : stripStr mask mem = some mem') :
    stripStr mask mem' = some mem' := by
  obtain ⟨m1, h1, hh, -⟩ := C43_strip_str mask mem text h
  rw [he] at h1; cases h1
  obtain ⟨h0, rest, rfl⟩ := hh
  have hl : strLen (without mask text ++ 0 :: rest) = some (without mask text).length := by
    unfold strLen
    rw [if_pos (by simp), List.idxOf_append, if_neg h0]; simp
  have hw : without mask (without mask text) = without mask text := by unfold without; rw [List.filter_filter]; simp
  rw [stripStr, hl, Option.bind_some, strip]
  split
  · rfl
  · obtain ⟨j, hj, hle, e⟩ := stripLoop_eq mask (without mask text).length [] [] (without mask text) (0 :: rest) h0 (.inr ⟨rest, rfl⟩)
    rw [List.take_length, List.drop_length, hw] at e
    rw [List.take_length, hw, Nat.sub_self] at hj
    have : j = [] := List.length_eq_zero_iff.1 hj
    subst this
    simp only [List.nil_append, List.length_nil, Nat.zero_add, List.append_nil] at e
    rw [e]; simp

/-- With a limit before the end of the text, whatever is behind the limit is lost when something was removed, and nothing
changes otherwise. -/
theorem C43_limit (mask max : Nat) (text rest : List Nat) (h0 : 0 ∉ text) (hm : max < text.length) :
    ∃ mem, strip mask max (text ++ rest) = some mem ∧ mem.length = (text ++ rest).length ∧
      if without mask (text.take max) = text.take max then mem = text ++ rest else Holds mem (without mask (text.take max)) := by
  by_cases hz : max = 0
  · subst hz; exact ⟨text ++ rest, by simp [strip], rfl, by simp [without]⟩
  · obtain ⟨j, hj, hle, he⟩ := stripLoop_eq mask max [] [] text rest h0 (.inl (by omega))
    simp only [List.nil_append, List.length_nil, Nat.zero_add] at he hj
    simp only [strip, hz, if_false, he]
    by_cases hq : (without mask (text.take max)).length = (text.take max).length
    · have hs := without_eq hq
      rw [if_neg (by omega)]
      have hj0 : j = [] := List.length_eq_zero_iff.1 (by omega)
      subst hj0
      refine ⟨_, rfl, ?_, ?_⟩
      · rw [hs, List.append_nil, ← List.append_assoc, List.take_append_drop]
      · rw [if_pos hs, hs, List.append_nil, ← List.append_assoc, List.take_append_drop]
    · have hlt : (text.take max).length = max := by simp; omega
      rw [if_pos (by omega), if_pos (by simp only [List.length_append] at *; omega)]
      refine ⟨_, rfl, ?_, ?_⟩
      · rw [List.length_set]; simp only [List.length_append, List.length_drop] at *; omega
      · rw [if_neg (fun h => hq (by rw [h]))]
        cases j with
        | nil => simp at hj; omega
        | cons x j =>
          refine ⟨fun h => h0 (List.mem_of_mem_take (List.mem_filter.1 h).1), j ++ (text.drop max ++ rest), ?_⟩
          rw [List.append_assoc, List.set_append_right _ _ (Nat.le_refl _)]; simp

/-- Completion with TAB and Ctrl-D: both are removed, other control characters stay. -/
example : Holds [97, 9, 98, 4, 7, 0, 55] [97, 9, 98, 4, 7] ∧ stripStr (2 ^ 9 + 2 ^ 4) [97, 9, 98, 4, 7, 0, 55] = some [97, 98, 7, 0, 7, 0, 55] ∧
    without (2 ^ 9 + 2 ^ 4) [97, 9, 98, 4, 7] = [97, 98, 7] := by
  exact ⟨⟨by decide, [55], rfl⟩, by decide, by decide⟩

example : (0 ∉ [97, 9, 98]) ∧ 2 < [97, 9, 98].length ∧ strip (2 ^ 9) 2 ([97, 9, 98] ++ [0]) = some [97, 0, 98, 0] := by decide

end Clink.Wakeup
