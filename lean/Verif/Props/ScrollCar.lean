import Verif.Proof.ScrollCar

/-! C28: the scroll car.  `rows` rows show a part of `total` lines that starts at line `top`. -/

namespace Clink.ScrollCar

open Spec

/-- The size: nothing when everything is visible; otherwise at least one cell, at most the track, and the visible share
of the lines rounded to half cells. -/
theorem C28_size (rows total : Int) (hr : rows ≤ 20000) (ht : total < 2 ^ 31) :
    ∃ size, carSize rows total = some size ∧
      (rows ≤ 0 ∨ total ≤ rows → size = 0) ∧
      (0 < rows → rows < total → 2 ≤ size ∧ size ≤ 2 * rows ∧ (size = 2 ∨ |2 * size * total - 4 * rows * rows| ≤ total + 1)) := by
  unfold carSize
  by_cases h : rows ≤ 0 ∨ rows ≥ total
  · rw [if_pos h]
    exact ⟨0, rfl, fun _ => rfl, fun h1 h2 => by omega⟩
  · rw [if_neg h]
    rw [not_or] at h
    have h1 : 0 < rows := by omega
    have h2 : rows < total := by omega
    obtain ⟨a, ha⟩ : ∃ a, a = 2 * rows * rows := ⟨_, rfl⟩
    have hsq : a ≤ 800000000 := by nlinarith
    have hsq0 : 0 ≤ a := by nlinarith
    rw [← ha, i32, if_pos ⟨by omega, by omega⟩]
    obtain ⟨s, hs⟩ : ∃ s, s = (a + total / 2) / total := ⟨_, rfl⟩
    rw [Option.map_some, ← hs]
    have e := Int.mul_ediv_add_emod (a + total / 2) total
    have m1 := Int.emod_nonneg (a + total / 2) (by omega : total ≠ 0)
    have m2 := Int.emod_lt_of_pos (a + total / 2) (by omega : 0 < total)
    rw [← hs] at e
    have hb : s ≤ 2 * rows := by
      by_contra hc
      have : total * s ≥ total * (2 * rows + 1) := by nlinarith
      have h3 : total * (2 * rows) ≥ rows * (2 * rows) := by nlinarith
      have h4 : total * (2 * rows + 1) = total * (2 * rows) + total := by ring
      have h5 : rows * (2 * rows) = a := by rw [ha]; ring
      omega
    refine ⟨_, rfl, fun h' => by omega, fun _ _ => ⟨le_max_left _ _, ?_, ?_⟩⟩
    · rw [min_eq_right hb]; exact max_le (by omega) hb
    · rw [min_eq_right hb]
      rcases le_total s 2 with hl | hl
      · left; exact max_eq_left hl
      · right
        rw [max_eq_right hl]
        have e2 : 2 * s * total = 2 * (total * s) := by ring
        have e3 : 4 * rows * rows = 2 * a := by rw [ha]; ring
        rw [e2, e3, abs_le]
        constructor <;> omega

/-- What is known about the offset: it is `rows * 2 - size` or the quotient, cut off. -/
theorem offset_eq {rnd : ℚ → ℚ} (h : Rounds rnd) {top rows total size : Int} (hr : rows ≤ 20000) (ht : total < 2 ^ 31)
    (h1 : 0 < rows) (h2 : rows < total) (hs : 2 ≤ size) (hs' : size ≤ 2 * rows) (h0 : 0 ≤ top) (ht' : top ≤ total - rows) :
    ∃ q : ℚ, q = rnd (top / rnd ((total - rows : Int) / (rows * 2 + 1 - size : Int))) ∧ 0 ≤ q ∧
      q ≤ top * (rows * 2 + 1 - size) / (total - rows) * (1 + 1 / 2 ^ 51) ∧ top * (rows * 2 + 1 - size) / (total - rows) * (1 - 1 / 2 ^ 51) ≤ q ∧
      carOffset rnd top rows total size = some (min (rows * 2 - size) ⌊q⌋) := by
  have hq := quotient h (T := total - rows) (p := rows * 2 + 1 - size) (t := top) (by omega) (by omega) (by omega) (by omega) h0 ht'
  refine ⟨_, rfl, hq.2.1, ?_, ?_, ?_⟩
  · have := hq.2.2.1; push_cast at this ⊢; exact this
  · have := hq.2.2.2; push_cast at this ⊢; exact this
  · unfold carOffset
    rw [if_neg (by omega)]
    simp only
    rw [if_neg (by omega), if_neg (not_le.2 hq.1), if_pos hq.2.1]
    obtain ⟨q, hqq⟩ : ∃ q, q = rnd (top / rnd ((total - rows : Int) / (rows * 2 + 1 - size : Int))) := ⟨_, rfl⟩
    rw [← hqq] at hq ⊢
    have hf0 : 0 ≤ ⌊q⌋ := Int.floor_nonneg.2 hq.2.1
    have hf : ⌊q⌋ < 2 ^ 31 := by
      have hT : (0 : ℚ) < (total - rows : Int) := by exact_mod_cast (by omega)
      have hp : (0 : ℚ) < (rows * 2 + 1 - size : Int) := by exact_mod_cast (by omega)
      have hp' : ((rows * 2 + 1 - size : Int) : ℚ) ≤ 40000 := by exact_mod_cast (by omega)
      have hx : (top * (rows * 2 + 1 - size : Int) / (total - rows : Int) : ℚ) ≤ (rows * 2 + 1 - size : Int) := by
        rw [div_le_iff₀ hT]
        have : (top : ℚ) ≤ (total - rows : Int) := by exact_mod_cast ht'
        nlinarith
      have : q < 2 ^ 31 := by linarith [hq.2.2.1]
      rw [Int.floor_lt]; exact_mod_cast this
    rw [i32, if_pos ⟨by omega, hf⟩, Option.map_some]

/-- The car is inside of its track. -/
theorem C28_inside {rnd : ℚ → ℚ} (h : Rounds rnd) {top rows total : Int} (hr : rows ≤ 20000) (ht : total < 2 ^ 31)
    (h0 : 0 ≤ top) (ht' : top ≤ total - rows) :
    ∃ size offset, carSize rows total = some size ∧ carOffset rnd top rows total size = some offset ∧ 0 ≤ offset ∧
      (0 < rows → offset + size ≤ rows * 2) := by
  obtain ⟨size, e, hz, hs⟩ := C28_size rows total hr ht
  refine ⟨size, ?_⟩
  by_cases h1 : rows ≤ 0 ∨ total ≤ rows
  · refine ⟨0, e, ?_, le_refl _, ?_⟩
    · rw [hz h1]; rfl
    · rw [hz h1]; intro; omega
  · rw [not_or] at h1
    obtain ⟨s1, s2, -⟩ := hs (by omega) (by omega)
    obtain ⟨q, -, q0, -, -, eo⟩ := offset_eq h hr ht (by omega) (by omega) s1 s2 h0 ht'
    refine ⟨_, e, eo, ?_, fun _ => ?_⟩
    · exact le_min (by omega) (Int.floor_nonneg.2 q0)
    · have := min_le_left (rows * 2 - size) ⌊q⌋; omega

/-- At the first line the car is at the top. -/
theorem C28_top {rnd : ℚ → ℚ} (h : Rounds rnd) {rows total size : Int} (hr : rows ≤ 20000) (ht : total < 2 ^ 31) (h1 : 0 < rows) (h2 : rows < total)
    (hs : carSize rows total = some size) : carOffset rnd 0 rows total size = some 0 := by
  obtain ⟨s, e, -, hs'⟩ := C28_size rows total hr ht
  rw [hs] at e; cases e
  obtain ⟨s1, s2, -⟩ := hs' h1 h2
  obtain ⟨q, e, -, -, -, eo⟩ := offset_eq h hr ht h1 h2 s1 s2 (le_refl 0) (by omega)
  rw [eo, e]
  simp [h.zero]
  omega

/-- At the last line the car is at the bottom. -/
theorem C28_bottom {rnd : ℚ → ℚ} (h : Rounds rnd) {rows total size : Int} (hr : rows ≤ 20000) (ht : total < 2 ^ 31) (h1 : 0 < rows) (h2 : rows < total)
    (hs : carSize rows total = some size) : carOffset rnd (total - rows) rows total size = some (rows * 2 - size) := by
  obtain ⟨s, e, -, hs'⟩ := C28_size rows total hr ht
  rw [hs] at e; cases e
  obtain ⟨s1, s2, -⟩ := hs' h1 h2
  obtain ⟨q, -, -, -, hq, eo⟩ := offset_eq h hr ht h1 h2 s1 s2 (by omega : 0 ≤ total - rows) (le_refl _)
  rw [eo, min_eq_left]
  rw [Int.le_floor]
  refine le_trans ?_ hq
  have hT : (0 : ℚ) < total - rows := by exact_mod_cast (by omega : 0 < total - rows)
  push_cast
  rw [mul_div_assoc, mul_div_cancel₀ _ (ne_of_gt hT)]
  have hp' : (rows * 2 + 1 - size : ℚ) ≤ 40000 := by exact_mod_cast (by omega : rows * 2 + 1 - size ≤ 40000)
  linarith

/-- The car never moves up when the view moves down. -/
theorem C28_mono {rnd : ℚ → ℚ} (h : Rounds rnd) {top top' rows total size o o' : Int} (hr : rows ≤ 20000) (ht : total < 2 ^ 31)
    (h0 : 0 ≤ top) (hle : top ≤ top') (ht' : top' ≤ total - rows) (hs : carSize rows total = some size)
    (ho : carOffset rnd top rows total size = some o) (ho' : carOffset rnd top' rows total size = some o') : o ≤ o' := by
  obtain ⟨s, e, hz, hs'⟩ := C28_size rows total hr ht
  rw [hs] at e; cases e
  by_cases h1 : rows ≤ 0 ∨ total ≤ rows
  · rw [hz h1] at ho ho'
    simp [carOffset] at ho ho'; omega
  · rw [not_or] at h1
    obtain ⟨s1, s2, -⟩ := hs' (by omega) (by omega)
    obtain ⟨q, e, -, -, -, eo⟩ := offset_eq h hr ht (by omega) (by omega) s1 s2 h0 (by omega)
    obtain ⟨q', e', -, -, -, eo'⟩ := offset_eq h hr ht (by omega) (by omega) s1 s2 (by omega : 0 ≤ top') ht'
    rw [eo] at ho; rw [eo'] at ho'
    cases ho; cases ho'
    apply min_le_min (le_refl _)
    apply Int.floor_le_floor
    rw [e, e']
    apply h.mono
    have hq := quotient h (T := total - rows) (p := rows * 2 + 1 - size) (t := top) (by omega) (by omega) (by omega) (by omega) h0 (by omega)
    apply div_le_div_of_nonneg_right _ hq.1.le
    exact_mod_cast hle

/-- The car reflects the position: up to half a cell it is the share of the lines above, of the possible positions. -/
theorem C28_position {rnd : ℚ → ℚ} (h : Rounds rnd) {top rows total size o : Int} (hr : rows ≤ 20000) (ht : total < 2 ^ 31)
    (h1 : 0 < rows) (h2 : rows < total) (h0 : 0 ≤ top) (ht' : top ≤ total - rows) (hs : carSize rows total = some size)
    (ho : carOffset rnd top rows total size = some o) :
    (o : ℚ) ≤ top * (rows * 2 + 1 - size) / (total - rows) * (1 + 1 / 2 ^ 51) ∧
    (top * (rows * 2 + 1 - size) / (total - rows) * (1 - 1 / 2 ^ 51) : ℚ) ≤ o + 1 := by
  obtain ⟨s, e, -, hs'⟩ := C28_size rows total hr ht
  rw [hs] at e; cases e
  obtain ⟨s1, s2, -⟩ := hs' h1 h2
  obtain ⟨q, -, q0, qu, ql, eo⟩ := offset_eq h hr ht h1 h2 s1 s2 h0 ht'
  rw [eo] at ho; cases ho
  constructor
  · refine le_trans ?_ (le_trans (Int.floor_le q) qu)
    exact_mod_cast min_le_right _ _
  · have hT : (0 : ℚ) < total - rows := by exact_mod_cast (by omega : 0 < total - rows)
    have hp : (0 : ℚ) < rows * 2 + 1 - size := by exact_mod_cast (by omega : 0 < rows * 2 + 1 - size)
    rcases min_choice (rows * 2 - size) ⌊q⌋ with e | e
    · rw [e]
      have hx : (top * (rows * 2 + 1 - size) / (total - rows) : ℚ) ≤ rows * 2 + 1 - size := by
        rw [div_le_iff₀ hT]
        have : (top : ℚ) ≤ total - rows := by exact_mod_cast ht'
        nlinarith
      have hx0 : (0 : ℚ) ≤ top * (rows * 2 + 1 - size) / (total - rows) := by
        have : (0 : ℚ) ≤ top := by exact_mod_cast h0
        positivity
      push_cast
      nlinarith
    · rw [e]
      exact le_trans ql (le_of_lt (Int.lt_floor_add_one q))

/-- Each cell shows which of its halves belong to the car. -/
theorem C28_char (row offset size : Int) (hs : 2 ≤ size) :
    carChar row offset size =
      if InCar offset size (2 * row) then (if InCar offset size (2 * row + 1) then some .full else some .upper)
      else if InCar offset size (2 * row + 1) then some .lower else none := by
  have d : ∀ h, InCar offset size h ↔ offset ≤ h ∧ h < offset + size := fun _ => Iff.rfl
  unfold carChar
  simp only
  rw [if_neg (by omega)]
  have h1 : round offset = 2 * (offset / 2) := by unfold round; omega
  have h2 : round (offset + size) = 2 * ((offset + size) / 2) := by unfold round; omega
  obtain ⟨a, ha⟩ : ∃ a, a = offset / 2 := ⟨_, rfl⟩
  obtain ⟨b, hb⟩ : ∃ b, b = (offset + size) / 2 := ⟨_, rfl⟩
  rw [h1, h2, ← ha, ← hb]
  have key : (2 * row ≥ 2 * a ∧ 2 * row < 2 * a + round ((if offset + size ≠ 2 * b then (if offset ≠ 2 * a then size + 1 else size) + 1
      else if offset ≠ 2 * a then size + 1 else size) + 1)) ↔ (2 * row ≥ 2 * a ∧ 2 * row < offset + size) := by
    unfold round
    split <;> split <;> constructor <;> intro ⟨_, _⟩ <;> constructor <;> omega
  have e : row * 2 = 2 * row := by omega
  rw [e]
  by_cases hin : 2 * row ≥ 2 * a ∧ 2 * row < offset + size
  · rw [if_pos (key.2 hin)]
    obtain ⟨i1, i2⟩ := hin
    by_cases c1 : 2 * row = 2 * a ∧ 2 * row ≠ offset
    · obtain ⟨c1, c2⟩ := c1
      rw [if_pos ⟨c1, c2⟩, if_neg (by rw [d]; omega), if_pos (by rw [d]; omega)]
    · have c1' : offset ≤ 2 * row := by
        by_contra hc; exact c1 ⟨by omega, by omega⟩
      rw [if_neg c1, if_pos ((d _).2 ⟨c1', i2⟩)]
      by_cases c2 : 2 * row = 2 * b ∧ 2 * row ≠ offset + size
      · obtain ⟨c2, c3⟩ := c2
        rw [if_pos ⟨c2, c3⟩, if_neg (by rw [d]; omega)]
      · have c2' : 2 * row + 1 < offset + size := by
          by_contra hc; exact c2 ⟨by omega, by omega⟩
        rw [if_neg c2, if_pos ((d _).2 ⟨by omega, c2'⟩)]
  · rw [if_neg (fun h => hin (key.1 h))]
    rw [not_and_or] at hin
    rw [if_neg (by rw [d]; omega), if_neg (by rw [d]; omega)]

/-- Clicking on the track: the first row is the first line, the last row the last line, and lower rows are later lines. -/
theorem C28_hittest (rows total : Int) (hr : 1 < rows) (ht : 1 < total) (hb : (rows - 1) * (total - 1) < 2 ^ 31) :
    hittest 0 rows total = some 0 ∧ hittest (rows - 1) rows total = some (total - 1) ∧
    ∀ r r', 0 ≤ r → r ≤ r' → r' < rows → ∃ x x', hittest r rows total = some x ∧ hittest r' rows total = some x' ∧ 0 ≤ x ∧ x ≤ x' ∧ x' < total := by
  have key : ∀ r, 0 ≤ r → r < rows → hittest r rows total = some (r * (total - 1) / (rows - 1)) := by
    intro r h0 h1
    have : r * (total - 1) ≤ (rows - 1) * (total - 1) := by nlinarith
    have h2 : 0 ≤ r * (total - 1) := by nlinarith
    rw [hittest, if_neg (by omega), i32, if_pos ⟨by omega, by omega⟩, Option.map_some, Int.tdiv_eq_ediv_of_nonneg h2]
  refine ⟨by rw [key 0 (by omega) (by omega)]; simp, by rw [key _ (by omega) (by omega), Int.mul_ediv_cancel_left _ (by omega)], ?_⟩
  intro r r' h0 hle hlt
  refine ⟨_, _, key r h0 (by omega), key r' (by omega) hlt, ?_, ?_, ?_⟩
  · exact Int.ediv_nonneg (by nlinarith) (by omega)
  · exact Int.ediv_le_ediv (by omega) (by nlinarith)
  · rw [Int.ediv_lt_iff_lt_mul (by omega)]; nlinarith

/-- Exact arithmetic is a rounding. -/
theorem rounds_id : Rounds id := ⟨fun _ _ h => h, fun x hx => by
  have : 0 ≤ x := by
    rcases hx with rfl | ⟨h, -⟩
    · exact le_refl _
    · exact le_trans (by positivity) h
  simp; positivity⟩

/-- 25 rows of 1000 lines, in the middle. -/
example : carSize 25 1000 = some 2 ∧ carOffset id 500 25 1000 2 = some 25 ∧ carChar 12 25 2 = some .lower ∧ carChar 13 25 2 = some .upper := by
  decide +kernel

/-- 10 rows of 25 lines. -/
example : carSize 10 25 = some 8 ∧ carOffset id 7 10 25 8 = some 6 ∧ carOffset id 15 10 25 8 = some 12 ∧
    (List.range 10).map (fun r => carChar r 6 8) = [none, none, none, some .full, some .full, some .full, some .full, none, none, none] := by
  decide +kernel

end Clink.ScrollCar
