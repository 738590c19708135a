import Verif.Proof.Scroll
/-
Theorems about scrolling the console (C65).  `Nearest s want t` is true if the window may start at `t` and `t` is as near to `want` as possible.
-/
namespace Clink.Scroll
open Spec

variable {setOk : Int × Int → Bool} {s : Screen}

/-- By lines: the window goes to the line as near as possible to where it should go, keeps its height, and the result is how far it went. -/
theorem C65_line (hv : Valid s) (hok : ∀ t, Allowed s t → setOk (t, t + (s.bottom - s.top)) = true) (n : Int)
    (hn : -32768 ≤ n ∧ n ≤ 32767 - s.bottom) :
    ∃ s' r t, scrollLua setOk s .byLine n = some (s', r) ∧ MovedTo s s' t r ∧ Nearest s (s.top + n) t := by
  have h1 := hv.top; have h2 := hv.window; have h3 := hv.inside; have h4 := hv.last; have h5 := hv.size
  have e1 : short n = n := short_id (by omega)
  have hw : wanted s n .byLine = some (s.top + n, s.top + n + (s.bottom - s.top)) := by
    unfold wanted
    simp only [e1]
    rw [short_id (by omega), short_id (by omega)]
    have : s.bottom + n = s.top + n + (s.bottom - s.top) := by omega
    rw [this]
  obtain ⟨s', r, a, b⟩ := scroll_moved hv hok hw (bounded_eq hv (s.top + n) (by omega) (by omega))
  exact ⟨s', r, _, a, b, target_nearest hv _⟩

/-- By pages: a page is one line less than the window. -/
theorem C65_page (hv : Valid s) (hok : ∀ t, Allowed s t → setOk (t, t + (s.bottom - s.top)) = true) (n : Int)
    (hn : -32768 ≤ n * (s.bottom - s.top) ∧ n * (s.bottom - s.top) ≤ 32767 - s.bottom) :
    ∃ s' r t, scrollLua setOk s .byPage n = some (s', r) ∧ MovedTo s s' t r ∧ Nearest s (s.top + n * (s.bottom - s.top)) t := by
  have h1 := hv.top; have h2 := hv.window; have h3 := hv.inside; have h4 := hv.last; have h5 := hv.size
  generalize hd : n * (s.bottom - s.top) = d at hn ⊢
  have e1 : short d = d := short_id (by omega)
  have hw : wanted s n .byPage = some (s.top + d, s.top + d + (s.bottom - s.top)) := by
    unfold wanted
    have hC : ¬ (d < -2147483648 ∨ d > 2147483647) := by omega
    simp only [hd]
    rw [if_neg hC, e1, short_id (by omega), short_id (by omega)]
    have : s.bottom + d = s.top + d + (s.bottom - s.top) := by omega
    rw [this]
  obtain ⟨s', r, a, b⟩ := scroll_moved hv hok hw (bounded_eq hv (s.top + d) (by omega) (by omega))
  exact ⟨s', r, _, a, b, target_nearest hv _⟩

/-- To the end: the first line of the buffer is the top, or the last line that may be shown is as near to the bottom as possible. -/
theorem C65_end (hv : Valid s) (hok : ∀ t, Allowed s t → setOk (t, t + (s.bottom - s.top)) = true) (n : Int) :
    ∃ s' r t, scrollLua setOk s .toEnd n = some (s', r) ∧ MovedTo s s' t r ∧ (n ≤ 0 → t = 0) ∧
      (0 < n → Nearest s (s.last - (s.bottom - s.top)) t) := by
  have h1 := hv.top; have h2 := hv.window; have h3 := hv.inside; have h4 := hv.last; have h5 := hv.size
  have hcy : short (s.bottom - s.top) = s.bottom - s.top := short_id (by omega)
  have hl : short (s.last - (s.bottom - s.top)) = s.last - (s.bottom - s.top) := short_id (by omega)
  have h0 : short (0 + (s.bottom - s.top)) = s.bottom - s.top := by rw [short_id (by omega)]; omega
  by_cases hn : n ≤ 0
  · have hw : wanted s n .toEnd = some (-1, -1) := by unfold wanted; rw [if_pos hn]
    have hb : bounded s (-1, -1) = (target s 0, target s 0 + (s.bottom - s.top)) := by
      have hC : ¬ ((-1 : Int) ≥ s.last) := by omega
      unfold bounded
      simp only [hcy, h0]
      rw [if_neg hC, if_pos (by decide)]
      unfold target
      exact Prod.ext (by simp only; omega) (by simp only; omega)
    obtain ⟨s', r, a, b⟩ := scroll_moved hv hok hw hb
    exact ⟨s', r, _, a, b, fun _ => by unfold target; omega, fun h => by omega⟩
  · have hw : wanted s n .toEnd = some (s.top, s.size) := by unfold wanted; rw [if_neg hn]
    have hb : bounded s (s.top, s.size) = (target s (s.last - (s.bottom - s.top)), target s (s.last - (s.bottom - s.top)) + (s.bottom - s.top)) := by
      have hC : s.size ≥ s.last := by omega
      unfold bounded
      simp only [hcy, h0, hl]
      rw [if_pos hC]
      unfold target
      by_cases ht : s.last - (s.bottom - s.top) < 0
      · rw [if_pos ht]; exact Prod.ext (by simp only; omega) (by simp only; omega)
      · rw [if_neg ht]; exact Prod.ext (by simp only; omega) (by simp only; omega)
    obtain ⟨s', r, a, b⟩ := scroll_moved hv hok hw hb
    exact ⟨s', r, _, a, b, fun h => absurd h hn, fun _ => target_nearest hv _⟩

/-- To a line, counted from 1: that line is as near to the top as possible, except for line 2. -/
theorem C65_absolute (hv : Valid s) (hok : ∀ t, Allowed s t → setOk (t, t + (s.bottom - s.top)) = true) (n : Int)
    (hn : 1 ≤ n ∧ n ≤ s.size) (h2' : n ≠ 2) (hfit : s.size + (s.bottom - s.top) ≤ 32768) :
    ∃ s' r t, scrollLua setOk s .absolute n = some (s', r) ∧ MovedTo s s' t r ∧ Nearest s (n - 1) t := by
  have h1 := hv.top; have h2 := hv.window; have h3 := hv.inside; have h4 := hv.last; have h5 := hv.size
  have hcy : short (s.bottom - s.top) = s.bottom - s.top := short_id (by omega)
  have hd : (if n - 1 ≤ 1 then 0 else n - 1) = n - 1 := by split <;> omega
  have hw : wanted s (n - 1) .absolute = some (n - 1, n - 1 + (s.bottom - s.top)) := by
    unfold wanted
    simp only [hcy, hd]
    rw [short_id (by omega), short_id (by omega)]
  obtain ⟨s', r, a, b⟩ := scroll_moved hv hok hw (bounded_eq hv (n - 1) (by omega) (by omega))
  refine ⟨s', r, _, ?_, b, target_nearest hv _⟩
  show (if n = -2147483648 then none else scroll setOk s (n - 1) .absolute) = _
  have hC : ¬ n = -2147483648 := by omega
  rw [if_neg hC, a]

/-- After any number of lines there and back the window is where it was, if it was allowed to go there. -/
theorem C65_back (hv : Valid s) (hok : ∀ t, Allowed s t → setOk (t, t + (s.bottom - s.top)) = true) (n : Int)
    (hn : -32767 ≤ n ∧ n ≤ 32767 - s.bottom) (ha : Allowed s s.top) (hb : Allowed s (s.top + n)) :
    ∃ s', scrollLua setOk s .byLine n = some (s', n) ∧ scrollLua setOk s' .byLine (-n) = some (s, -n) := by
  have h1 := hv.top; have h2 := hv.window; have h3 := hv.inside; have h4 := hv.last; have h5 := hv.size
  obtain ⟨s', r, t, e1, ⟨m1, m2, m3, m4, m5⟩, n1, n2⟩ := C65_line hv hok n ⟨by omega, hn.2⟩
  have ht : t = s.top + n := by have := n2 _ hb; omega
  unfold Allowed at hb ha
  have hv' : Valid s' := by
    refine ⟨by omega, by omega, by omega, by omega, by omega⟩
  have hall : ∀ t, Allowed s' t ↔ Allowed s t := by intro t; unfold Allowed; rw [m2, m4]
  obtain ⟨s2, r2, t2, e2, ⟨k1, k2, k3, k4, k5⟩, q1, q2⟩ := C65_line (setOk := setOk) hv' (fun t h => by rw [m2]; exact hok t ((hall t).1 h)) (-n)
    ⟨by omega, by omega⟩
  have ht2 : t2 = s.top := by
    have := q2 s.top ((hall _).2 ha); omega
  refine ⟨s', by rw [e1]; congr 2; omega, ?_⟩
  rw [e2]
  have : s2 = s := by
    cases s2; cases s
    simp only at *
    congr 1 <;> omega
  rw [this]
  congr 2; omega

/-! ### Concrete screens -/

/-- A window of 25 lines in a buffer of 300 lines, with the input line at 199. -/
def s0 : Screen := ⟨175, 199, 300, 199⟩

def any : Int × Int → Bool := fun _ => true

example : Valid s0 := ⟨by decide, by decide, by decide, by decide, by decide⟩
example : scrollLua any s0 .byLine (-3) = some (⟨172, 196, 300, 199⟩, -3) := by decide +kernel
example : scrollLua any s0 .byPage (-2) = some (⟨127, 151, 300, 199⟩, -48) := by decide +kernel
example : scrollLua any s0 .byPage (-20) = some (⟨0, 24, 300, 199⟩, -175) := by decide +kernel
example : scrollLua any s0 .byLine 1 = some (s0, 0) := by decide +kernel
example : scrollLua any s0 .toEnd (-1) = some (⟨0, 24, 300, 199⟩, -175) := by decide +kernel
example : scrollLua any ⟨0, 24, 300, 199⟩ .toEnd 1 = some (s0, 175) := by decide +kernel
example : scrollLua any s0 .absolute 100 = some (⟨99, 123, 300, 199⟩, -76) := by decide +kernel
example : Allowed s0 s0.top ∧ Allowed s0 (s0.top + -3) := by unfold Allowed s0; decide

/-! ### What does not hold -/

/-- Line 2 cannot be the top: asking for it gives line 1. -/
theorem C65_absolute_violated : scrollLua any s0 .absolute 2 = some (⟨0, 24, 300, 199⟩, -175) ∧ ¬ Nearest s0 (2 - 1) 0 := by
  refine ⟨by decide +kernel, ?_⟩
  rintro ⟨_, h⟩
  have := h 1 (by unfold Allowed s0; decide)
  revert this; decide

/-- Many lines down are lines up, because only 16 bits of the number are used. -/
theorem C65_line_violated : scrollLua any ⟨0, 24, 300, 199⟩ .byLine 65536 = some (⟨0, 24, 300, 199⟩, 0) ∧
    scrollLua any ⟨100, 124, 300, 199⟩ .byLine 40000 = some (⟨0, 24, 300, 199⟩, -100) := by decide +kernel

/-- Too many pages are an overflow. -/
theorem C65_page_violated : scrollLua any s0 .byPage 100000000 = none := by decide +kernel

/-- If the window is below the input line, then one line down is lines up. -/
theorem C65_down_violated : scrollLua any ⟨250, 274, 300, 199⟩ .byLine 1 = some (s0, -75) := by decide +kernel

end Clink.Scroll
