import Verif.Spec.SuggList

/-! The suggestion list. -/

namespace Clink.SuggList

open Spec (Good Full margin)

theorem scrollOfs_bound (c : Cfg) (s : S) (h : 0 < s.vis) : 0 ≤ scrollOfs c s ∧ 2 * scrollOfs c s + 1 ≤ s.vis := by
  unfold scrollOfs
  split <;> omega

theorem scrollOfs_margin (c : Cfg) (s : S) (h : 0 < s.vis) : scrollOfs c s = margin c.ofs s.vis := by
  unfold scrollOfs margin
  split
  · rfl
  · split <;> omega

/-- Only `top` differs. -/
def Same (s s' : S) : Prop := s'.index = s.index ∧ s'.count = s.count ∧ s'.vis = s.vis ∧ s'.maxRows = s.maxRows ∧ s'.ignore = s.ignore

theorem reveal_same (s : S) : Same s (reveal s) := by
  unfold reveal
  split
  · exact ⟨rfl, rfl, rfl, rfl, rfl⟩
  · simp only []
    split <;> exact ⟨rfl, rfl, rfl, rfl, rfl⟩

theorem reveal_top (s : S) (h0 : 0 < s.vis) (h1 : s.vis ≤ s.count) (ht : 0 ≤ s.top) (hi : -1 ≤ s.index) :
    0 ≤ (reveal s).top ∧ (0 ≤ s.index → (reveal s).top ≤ s.index ∧ s.index < (reveal s).top + s.vis) ∧ (s.index = -1 → (reveal s).top = 0) ∧
    (s.top + s.vis ≤ s.count → s.index < s.count → (reveal s).top + s.vis ≤ s.count) := by
  unfold reveal
  split
  · show 0 ≤ max 0 s.index ∧ (0 ≤ s.index → max 0 s.index ≤ s.index ∧ s.index < max 0 s.index + s.vis) ∧ (s.index = -1 → max 0 s.index = 0) ∧
      (s.top + s.vis ≤ s.count → s.index < s.count → max 0 s.index + s.vis ≤ s.count)
    omega
  · simp only []
    split
    · show 0 ≤ max 0 (s.index - (min s.count s.vis - 1)) ∧ (0 ≤ s.index → max 0 (s.index - (min s.count s.vis - 1)) ≤ s.index ∧
        s.index < max 0 (s.index - (min s.count s.vis - 1)) + s.vis) ∧ (s.index = -1 → max 0 (s.index - (min s.count s.vis - 1)) = 0) ∧
        (s.top + s.vis ≤ s.count → s.index < s.count → max 0 (s.index - (min s.count s.vis - 1)) + s.vis ≤ s.count)
      omega
    · omega

theorem updateTop_same (c : Cfg) (s : S) : Same s (updateTop c s) := by
  have h := reveal_same s
  unfold updateTop
  simp only []
  generalize reveal s = r at *
  split
  · exact h
  · split
    · split
      · exact h
      · split <;> exact h
    · exact h

/-- What `update_top` does with a list that has rows. -/
theorem updateTop_top (c : Cfg) (s : S) (h0 : 0 < s.vis) (h1 : s.vis ≤ s.count) (ht : 0 ≤ s.top) (hi : -1 ≤ s.index) :
    0 ≤ (updateTop c s).top ∧ (0 ≤ s.index → s.index < s.count → (updateTop c s).top ≤ s.index ∧ s.index < (updateTop c s).top + s.vis) ∧
    (s.index = -1 → (updateTop c s).top = 0) ∧
    (s.top + s.vis ≤ s.count → s.index < s.count → (updateTop c s).top + s.vis ≤ s.count) ∧
    (s.ignore = false → 0 ≤ s.index → (updateTop c s).top ≤ max 0 (s.index - margin c.ofs s.vis) ∧
      min (s.count - s.vis) (s.index + margin c.ofs s.vis - s.vis + 1) ≤ (updateTop c s).top) := by
  obtain ⟨r1, r2, r3, r4⟩ := reveal_top s h0 h1 ht hi
  obtain ⟨q1, q2, q3, q4, q5⟩ := reveal_same s
  have hb := scrollOfs_bound c (reveal s) (by omega)
  have hm := scrollOfs_margin c (reveal s) (by omega)
  rw [q3] at hm hb
  rw [← hm]
  unfold updateTop
  simp only []
  generalize reveal s = r at *
  generalize scrollOfs c r = o at *
  rw [q1, q2, q3, q5]
  split
  · rename_i hg
    refine ⟨r1, fun a _ => r2 a, r3, r4, fun hh => ?_⟩
    rw [hh] at hg
    exact absurd hg (by simp)
  · split
    · split
      · show 0 ≤ max 0 (s.index - o) ∧ (0 ≤ s.index → s.index < s.count → max 0 (s.index - o) ≤ s.index ∧ s.index < max 0 (s.index - o) + s.vis) ∧
          (s.index = -1 → max 0 (s.index - o) = 0) ∧ (s.top + s.vis ≤ s.count → s.index < s.count → max 0 (s.index - o) + s.vis ≤ s.count) ∧
          (s.ignore = false → 0 ≤ s.index → max 0 (s.index - o) ≤ max 0 (s.index - o) ∧ min (s.count - s.vis) (s.index + o - s.vis + 1) ≤ max 0 (s.index - o))
        omega
      · split
        · show 0 ≤ min (max 0 (s.count - s.vis)) (s.index + o - min s.vis s.count + 1) ∧ (0 ≤ s.index → s.index < s.count → min (max 0 (s.count - s.vis)) (s.index + o - min s.vis s.count + 1) ≤ s.index ∧
            s.index < min (max 0 (s.count - s.vis)) (s.index + o - min s.vis s.count + 1) + s.vis) ∧
            (s.index = -1 → min (max 0 (s.count - s.vis)) (s.index + o - min s.vis s.count + 1) = 0) ∧
            (s.top + s.vis ≤ s.count → s.index < s.count → min (max 0 (s.count - s.vis)) (s.index + o - min s.vis s.count + 1) + s.vis ≤ s.count) ∧
            (s.ignore = false → 0 ≤ s.index → min (max 0 (s.count - s.vis)) (s.index + o - min s.vis s.count + 1) ≤ max 0 (s.index - o) ∧
              min (s.count - s.vis) (s.index + o - s.vis + 1) ≤ min (max 0 (s.count - s.vis)) (s.index + o - min s.vis s.count + 1))
          omega
        · refine ⟨r1, fun a _ => r2 a, r3, r4, fun _ _ => ?_⟩
          omega
    · refine ⟨r1, fun a _ => r2 a, r3, r4, fun _ h => ?_⟩
      have := r2 h
      omega

end Clink.SuggList
