import Mathlib.Data.Nat.Notation

/-!
What removing wake-up characters should do.
-/

namespace Clink.Wakeup.Spec

/-- A wake-up character: a control character that the mask selects. -/
def WakeUp (mask c : Nat) : Prop := c < 32 ∧ mask / 2 ^ c % 2 = 1

instance (mask c : Nat) : Decidable (WakeUp mask c) := inferInstanceAs (Decidable (_ ∧ _))

/-- Memory that holds the text and its terminator. -/
def Holds (mem text : List Nat) : Prop := 0 ∉ text ∧ ∃ rest, mem = text ++ 0 :: rest

/-- The text without its wake-up characters. -/
def without (mask : Nat) (text : List Nat) : List Nat := text.filter fun c => ¬ WakeUp mask c

end Clink.Wakeup.Spec
