import Mathlib.Data.Nat.Notation

/-!
When history expansion should leave a character alone.
-/

namespace Clink.HistExpand.Spec

def IsQuote (c : Nat) : Prop := c = 39 ∨ c = 34

/-- Text outside of quotes. -/
def Plain (u : List Nat) : Prop := ∀ c ∈ u, ¬ IsQuote c

/-- Text that consists of plain text and closed quotations; the other kind of quote can occur inside a quotation. -/
inductive Closed : List Nat → Prop
  | plain {u} : Plain u → Closed u
  | quote {u q v} : Closed u → IsQuote q → q ∉ v → ∀ {w}, Plain w → Closed (u ++ q :: v ++ q :: w)

/-- The character behind `u` is inside a quotation with the quote `q`. -/
def Inside (q : Nat) (u : List Nat) : Prop := ∃ v w, u = v ++ q :: w ∧ IsQuote q ∧ Closed v ∧ q ∉ w

/-- No quotation contains the other kind of quote. -/
def NotMixed (u : List Nat) : Prop := ∀ v q w r, u = v ++ q :: w ++ r → IsQuote q → Closed v → q ∉ w → Plain w

/-- The quotations that a setting protects: 2 single, 3 double, 4 both. -/
def Protects (setting : Int) (q : Nat) : Prop := q = 39 ∧ (setting = 2 ∨ setting = 4) ∨ q = 34 ∧ (setting = 3 ∨ setting = 4)

/-- The quotes of the text. -/
def quotes (u : List Nat) : List Nat := u.filter fun c => c = 39 ∨ c = 34

end Clink.HistExpand.Spec
