import Verif.Model.Wakeup
import Verif.Spec.Wakeup

namespace Clink.Wakeup

open Spec

theorem kept_iff (mask c : Nat) : kept mask c = decide (¬ WakeUp mask c) := by
  unfold kept WakeUp
  rw [Nat.testBit_eq_decide_div_mod_eq]
  by_cases h1 : 32 ≤ c <;> by_cases h2 : mask / 2 ^ c % 2 = 1 <;> simp [h1, h2] <;> omega

/-- The loop, with what is already written, a part that is not important, and what is still to be read. -/
theorem stripLoop_eq (mask : Nat) : ∀ (n : Nat) (out junk text rest : List Nat), 0 ∉ text → (n ≤ text.length ∨ ∃ r, rest = 0 :: r) →
    ∃ junk', junk'.length = junk.length + ((text.take n).length - (without mask (text.take n)).length) ∧
      (without mask (text.take n)).length ≤ (text.take n).length ∧
      stripLoop mask n (out ++ junk ++ (text ++ rest)) (out.length + junk.length) out.length =
        some (out ++ without mask (text.take n) ++ junk' ++ (text.drop n ++ rest), out.length + junk.length + (text.take n).length,
          out.length + (without mask (text.take n)).length) := by
  intro n
  induction n with
  | zero => intro out junk text rest _ _; exact ⟨junk, by simp [without], by simp [without], by simp [stripLoop, without]⟩
  | succ n ih =>
    intro out junk text rest h0 hn
    cases text with
    | nil =>
      obtain ⟨r, rfl⟩ : ∃ r, rest = 0 :: r := by simpa using hn
      refine ⟨junk, by simp [without], by simp [without], ?_⟩
      have : (out ++ junk ++ ([] ++ 0 :: r))[out.length + junk.length]? = some 0 := by
        rw [List.getElem?_append_right (by simp)]; simp
      rw [stripLoop, this]
      simp [without]
    | cons c text =>
      have hc : c ≠ 0 := fun h => h0 (by simp [h])
      have h0' : 0 ∉ text := fun h => h0 (by simp [h])
      have hn' : n ≤ text.length ∨ ∃ r, rest = 0 :: r := by
        rcases hn with h | h
        · left; simpa using h
        · exact .inr h
      have hg : (out ++ junk ++ (c :: text ++ rest))[out.length + junk.length]? = some c := by
        rw [List.getElem?_append_right (by simp)]; simp
      rw [stripLoop, hg]
      simp only [hc, if_false, kept_iff]
      by_cases hw : WakeUp mask c
      · simp only [hw, not_true, decide_false, Bool.false_eq_true, if_false]
        obtain ⟨j', hj, hle, he⟩ := ih out (junk ++ [c]) text rest h0' hn'
        refine ⟨j', ?_, ?_, ?_⟩
        · simp only [List.take_succ_cons, List.length_cons, without, List.filter_cons, hw, List.length_append] at *
          simp at *; omega
        · simp only [List.take_succ_cons, List.length_cons, without, List.filter_cons, hw, List.length_append] at *
          simp at *; omega
        · have : out ++ junk ++ (c :: text ++ rest) = out ++ (junk ++ [c]) ++ (text ++ rest) := by simp
          rw [this, show out.length + junk.length + 1 = out.length + (junk ++ [c]).length by simp; omega, he]
          simp only [List.take_succ_cons, List.drop_succ_cons, without, List.filter_cons, hw]
          simp; omega
      · simp only [hw, not_false_eq_true, decide_true, if_true]
        have key : ∃ j1, j1.length = junk.length ∧
            (if out.length ≠ out.length + junk.length then
              if out.length < (out ++ junk ++ (c :: text ++ rest)).length then
                stripLoop mask n ((out ++ junk ++ (c :: text ++ rest)).set out.length c) (out.length + junk.length + 1) (out.length + 1) else none
              else stripLoop mask n (out ++ junk ++ (c :: text ++ rest)) (out.length + junk.length + 1) (out.length + 1)) =
            stripLoop mask n (out ++ [c] ++ j1 ++ (text ++ rest)) ((out ++ [c]).length + j1.length) (out ++ [c]).length := by
          cases junk with
          | nil => exact ⟨[], rfl, by simp⟩
          | cons x junk =>
            refine ⟨junk ++ [c], by simp, ?_⟩
            rw [if_pos (by simp), if_pos (by simp)]
            congr 1
            · rw [List.append_assoc, List.set_append_right _ _ (Nat.le_refl _)]; simp
            · simp; omega
            · simp
        obtain ⟨j1, hj1, hk⟩ := key
        obtain ⟨j', hj, hle, he⟩ := ih (out ++ [c]) j1 text rest h0' hn'
        refine ⟨j', ?_, ?_, ?_⟩
        · simp only [List.take_succ_cons, List.length_cons, without, List.filter_cons, hw] at *
          simp at *; omega
        · simp only [List.take_succ_cons, List.length_cons, without, List.filter_cons, hw] at *
          simp at *; omega
        · rw [hk, he]
          simp only [List.take_succ_cons, List.drop_succ_cons, without, List.filter_cons, hw]
          simp; omega

end Clink.Wakeup
