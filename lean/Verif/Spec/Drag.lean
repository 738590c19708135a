/-!
When dragging should scroll, in terms of times.
-/

namespace Clink.Drag.Spec

/-- What has happened since the time `c`, newest first: at which times there were mouse events, and whether they scrolled. -/
abbrev History := List (Nat × Bool)

/-- How long it is, at time `t`, since the list scrolled; a long time if it has not. -/
def since (c : Nat) (t : Nat) : History → Nat
  | [] => t - c + 65535
  | (u, true) :: _ => t - u
  | (_, false) :: h => since c t h

/-- The event comes after a pause of more than a quarter of a second without scrolling. -/
def Pause (c t : Nat) (h : History) : Prop := 250 < since c t h

/-- Scrolling began with the event at time `b`: it came after a pause, and there has been no pause since. -/
inductive Began (c b : Nat) : History → Prop
  | now {x : Bool} {h : History} : Pause c b h → Began c b ((b, x) :: h)
  | since {t : Nat} {x : Bool} {h : History} : ¬ Pause c t h → Began c b h → Began c b ((t, x) :: h)

/-- Slow in the first second, then faster, and fast after two seconds. -/
def speed (d : Nat) : Nat := if d ≤ 1000 then 1 else if d ≤ 2000 then 3 else 10

/-- The times do not go back. -/
def Ordered (c : Nat) : History → Prop
  | [] => True
  | (t, _) :: h => (∀ e ∈ h, e.1 ≤ t) ∧ c ≤ t ∧ Ordered c h

end Clink.Drag.Spec
