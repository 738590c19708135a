import Verif.Model.Scroll
/-
What scrolling should do: the window goes where it is asked to go, as near as the bounds allow.
-/
namespace Clink.Scroll.Spec

/-- A screen as Windows describes it. -/
structure Valid (s : Screen) : Prop where
  top : 0 ≤ s.top
  window : s.top ≤ s.bottom
  inside : s.bottom < s.size
  size : s.size ≤ 32767
  last : 0 ≤ s.last ∧ s.last < s.size

/-- The window may start at line `t`: it does not go below the last line, unless it is at the top. -/
def Allowed (s : Screen) (t : Int) : Prop := 0 ≤ t ∧ (t = 0 ∨ t + (s.bottom - s.top) ≤ s.last)

/-- `t` is allowed and as near to `want` as an allowed line can be. -/
def Nearest (s : Screen) (want t : Int) : Prop := Allowed s t ∧ ∀ t', Allowed s t' → (t - want).natAbs ≤ (t' - want).natAbs

/-- The window is at `t` with its height as before, and `r` says how far it went. -/
def MovedTo (s s' : Screen) (t r : Int) : Prop :=
  s'.top = t ∧ s'.bottom - s'.top = s.bottom - s.top ∧ s'.size = s.size ∧ s'.last = s.last ∧ r = s'.top - s.top

end Clink.Scroll.Spec
