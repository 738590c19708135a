/-! What C67 says about rows, orders and macros. -/

namespace Clink.KeyList.Spec


/-- Entries go down the columns: with `rows` rows the entries of row `i`. -/
def down (rows n i : Nat) : List Nat := (List.range n).filter fun x => x % rows = i

/-- Entries go along the rows. -/
def along (columns n i : Nat) : List Nat := (List.range n).filter fun x => x / columns = i

/-- The smallest number of rows. -/
def IsRows (columns n rows : Nat) : Prop := n ≤ rows * columns ∧ ∀ r, n ≤ r * columns → rows ≤ r

/-- A comparison function for `qsort`: it defines an order in which some elements may be equal. -/
structure Consistent {α : Type} (cmp : α → α → Int) : Prop where
  refl : ∀ a, cmp a a = 0
  flip : ∀ a b, cmp a b < 0 ↔ 0 < cmp b a
  trans : ∀ a b c, cmp a b ≤ 0 → cmp b c ≤ 0 → cmp a c ≤ 0

/-- The width of characters. -/
def width (chars : List (List Nat × Nat)) : Nat := (chars.map Prod.snd).sum

/-- Their text. -/
def textOf (chars : List (List Nat × Nat)) : List Nat := chars.flatMap Prod.fst

/-- A macro shortened to at most `limit` cells: as it is, or as many characters as leave room for the ellipsis. -/
def Shortened (ellipsis : List Nat) (cells limit : Nat) (chars : List (List Nat × Nat)) (out : List Nat) : Prop :=
  (width chars ≤ limit ∧ out = textOf chars) ∨
  (limit < width chars ∧ ∃ p c q, chars = p ++ c :: q ∧ out = textOf p ++ ellipsis ∧ width p + cells ≤ limit ∧ limit < width p + c.2 + cells)

end Clink.KeyList.Spec
