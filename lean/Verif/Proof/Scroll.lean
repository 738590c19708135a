import Verif.Spec.Scroll

namespace Clink.Scroll
open Spec

theorem short_id {n : Int} (h : -32768 ≤ n ∧ n ≤ 32767) : short n = n := by unfold short; omega

/-- Where the window comes to be. -/
def target (s : Screen) (want : Int) : Int := max 0 (min want (s.last - (s.bottom - s.top)))

theorem target_nearest {s : Screen} (hv : Valid s) (want : Int) : Nearest s want (target s want) := by
  have h1 := hv.top; have h2 := hv.window; have h3 := hv.inside; have h4 := hv.last
  unfold Nearest Allowed target
  refine ⟨⟨by omega, by omega⟩, ?_⟩
  intro t' ht
  omega

theorem bounded_eq {s : Screen} (hv : Valid s) (want : Int) (hw : -32768 ≤ want) (hw2 : want + (s.bottom - s.top) ≤ 32767) :
    bounded s (want, want + (s.bottom - s.top)) = (target s want, target s want + (s.bottom - s.top)) := by
  have h1 := hv.top; have h2 := hv.window; have h3 := hv.inside; have h4 := hv.last; have h5 := hv.size
  have hcy : short (s.bottom - s.top) = s.bottom - s.top := short_id (by omega)
  have hl : short (s.last - (s.bottom - s.top)) = s.last - (s.bottom - s.top) := short_id (by omega)
  have h0 : short (0 + (s.bottom - s.top)) = s.bottom - s.top := by rw [short_id (by omega)]; omega
  unfold bounded
  simp only [hcy, hl, h0]
  unfold target
  by_cases hb : want + (s.bottom - s.top) ≥ s.last
  · rw [if_pos hb]
    by_cases ht : s.last - (s.bottom - s.top) < 0
    · rw [if_pos ht]
      exact Prod.ext (by simp only; omega) (by simp only; omega)
    · rw [if_neg ht]
      exact Prod.ext (by simp only; omega) (by simp only; omega)
  · rw [if_neg hb]
    by_cases ht : want < 0
    · rw [if_pos ht]
      exact Prod.ext (by simp only; omega) (by simp only; omega)
    · rw [if_neg ht]
      exact Prod.ext (by simp only; omega) (by simp only; omega)

theorem scroll_moved {setOk : Int × Int → Bool} {s : Screen} (hv : Valid s) {direction : Int} {m : Mode} {want : Int}
    (hok : ∀ t, Allowed s t → setOk (t, t + (s.bottom - s.top)) = true) {w : Int × Int} (hw : wanted s direction m = some w)
    (hb : bounded s w = (target s want, target s want + (s.bottom - s.top))) :
    ∃ s' r, scroll setOk s direction m = some (s', r) ∧ MovedTo s s' (target s want) r := by
  unfold scroll
  simp only [hw, hb]
  by_cases ht : target s want = s.top
  · rw [if_pos (.inl ht)]
    exact ⟨s, 0, rfl, ht.symm, rfl, rfl, rfl, by omega⟩
  · have hn : ¬ (target s want = s.top ∨ setOk (target s want, target s want + (s.bottom - s.top)) = false) := by
      rintro (h | h)
      · exact ht h
      · rw [hok _ (target_nearest hv want).1] at h; cases h
    rw [if_neg hn]
    exact ⟨_, _, rfl, rfl, by simp only; omega, rfl, rfl, rfl⟩

end Clink.Scroll
