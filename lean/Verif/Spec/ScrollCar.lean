import Mathlib.Data.Rat.Defs
import Mathlib.Algebra.Order.Field.Rat
import Mathlib.Algebra.Order.Group.Abs

/-!
What a scroll car should look like.
-/

namespace Clink.ScrollCar.Spec

/-- Rounding of floating point numbers, as far as it is used: it keeps the order and has a small relative error. -/
structure Rounds (rnd : ℚ → ℚ) : Prop where
  mono : ∀ x y, x ≤ y → rnd x ≤ rnd y
  close : ∀ x, x = 0 ∨ 1 / 2 ^ 64 ≤ x ∧ x ≤ 2 ^ 64 → |rnd x - x| ≤ x / 2 ^ 53

/-- The half cell `h` belongs to the car. -/
def InCar (offset size h : Int) : Prop := offset ≤ h ∧ h < offset + size

instance (o s h : Int) : Decidable (InCar o s h) := inferInstanceAs (Decidable (_ ∧ _))

end Clink.ScrollCar.Spec
