import Verif.Model.ScrollCar
import Verif.Spec.ScrollCar
import Mathlib.Tactic.Linarith
import Mathlib.Tactic.Positivity
import Mathlib.Tactic.FieldSimp
import Mathlib.Tactic.Ring

namespace Clink.ScrollCar

open Spec

/-- Bounds for a rounded number. -/
theorem Spec.Rounds.bounds {rnd : ℚ → ℚ} (h : Rounds rnd) {x : ℚ} (hx : 1 / 2 ^ 64 ≤ x) (hx' : x ≤ 2 ^ 64) :
    x * (1 - 1 / 2 ^ 53) ≤ rnd x ∧ rnd x ≤ x * (1 + 1 / 2 ^ 53) := by
  have := h.close x (.inr ⟨hx, hx'⟩)
  rw [abs_le] at this
  constructor <;> linarith [this.1, this.2]

theorem Spec.Rounds.zero {rnd : ℚ → ℚ} (h : Rounds rnd) : rnd 0 = 0 := by
  have := h.close 0 (.inl rfl)
  simpa using this

/-- The quotient that the code computes. -/
theorem quotient {rnd : ℚ → ℚ} (h : Rounds rnd) {T p t : Int} (hT : 1 ≤ T) (hT' : T < 2 ^ 31) (hp : 1 ≤ p) (hp' : p < 2 ^ 31) (ht : 0 ≤ t) (ht' : t ≤ T) :
    0 < rnd (T / p) ∧ 0 ≤ rnd (t / rnd (T / p)) ∧ rnd (t / rnd (T / p)) ≤ t * p / T * (1 + 1 / 2 ^ 51) ∧ t * p / T * (1 - 1 / 2 ^ 51) ≤ rnd (t / rnd (T / p)) := by
  have hTq : (1 : ℚ) ≤ T := by exact_mod_cast hT
  have hTq' : (T : ℚ) ≤ 2 ^ 31 := by exact_mod_cast hT'.le
  have hpq : (1 : ℚ) ≤ p := by exact_mod_cast hp
  have hpq' : (p : ℚ) ≤ 2 ^ 31 := by exact_mod_cast hp'.le
  have hx1 : (1 / 2 ^ 31 : ℚ) ≤ T / p := by
    rw [div_le_div_iff₀ (by norm_num) (by linarith)]
    nlinarith
  have hx2 : (T / p : ℚ) ≤ 2 ^ 31 := by
    rw [div_le_iff₀ (by linarith)]
    nlinarith
  obtain ⟨x, hx⟩ : ∃ x : ℚ, x = T / p := ⟨_, rfl⟩
  rw [← hx] at hx1 hx2 ⊢
  have hb := h.bounds (x := x) (le_trans (by norm_num) hx1) (le_trans hx2 (by norm_num))
  have hxp : 0 < x := lt_of_lt_of_le (by norm_num) hx1
  obtain ⟨y, hy⟩ : ∃ y, y = rnd x := ⟨_, rfl⟩
  rw [← hy] at hb ⊢
  have hyp : 0 < y := lt_of_lt_of_le (by nlinarith) hb.1
  refine ⟨hyp, ?_⟩
  by_cases ht0 : t = 0
  · subst ht0
    simp [h.zero]
  have htq : (1 : ℚ) ≤ t := by exact_mod_cast (by omega : 1 ≤ t)
  have htq' : (t : ℚ) ≤ 2 ^ 31 := le_trans (by exact_mod_cast ht') hTq'
  have hy2 : y ≤ 2 ^ 32 := by nlinarith [hb.2]
  have hy1 : 1 / 2 ^ 32 ≤ y := by
    have : x * (1 - 1 / 2 ^ 53) ≤ y := hb.1
    nlinarith
  have hq1 : (1 / 2 ^ 64 : ℚ) ≤ t / y := by
    rw [div_le_div_iff₀ (by norm_num) hyp]; nlinarith
  have hq2 : (t / y : ℚ) ≤ 2 ^ 64 := by
    rw [div_le_iff₀ hyp]; nlinarith
  have hc := h.bounds hq1 hq2
  have hr : (t * p / T : ℚ) = t / x := by rw [hx]; field_simp
  rw [hr]
  have ht0 : (0 : ℚ) < t / x := by positivity
  have h1 : t / y ≤ t / x * (1 + 1 / 2 ^ 52) := by
    rw [div_mul_eq_mul_div, div_le_div_iff₀ hyp hxp]
    nlinarith [hb.1, mul_pos (by linarith : (0:ℚ) < t) hxp]
  have h2 : t / x * (1 - 1 / 2 ^ 52) ≤ t / y := by
    rw [div_mul_eq_mul_div, div_le_div_iff₀ hxp hyp]
    nlinarith [hb.2, mul_pos (by linarith : (0:ℚ) < t) hxp]
  have h3 : (0:ℚ) < t / y := by positivity
  refine ⟨?_, ?_, ?_⟩
  · nlinarith [hc.1]
  · nlinarith [hc.2]
  · nlinarith [hc.1]

end Clink.ScrollCar
