import Verif.Spec.Ellipsify
/-
What wrapping should do: as many words as fit are put on each line.
-/
namespace Clink.Wrap.Spec
open Clink.Ellipsify.Spec (Glyphs)

/-- A character as it is seen, with its width; see `Glyphs`. -/
abbrev G := List Nat × Int

def Space (g : G) : Prop := g.1 = [32]

instance (g : G) : Decidable (Space g) := inferInstanceAs (Decidable (g.1 = [32]))

/-- The cells of characters; a control character has one. -/
def width (gs : List G) : Int := (gs.map fun g => if g.2 < 0 then 1 else g.2).sum

/-- More cells than there are.  Zero means that there is no limit. -/
def Over (wrap : Nat) (gs : List G) : Prop := wrap ≠ 0 ∧ wrap < width gs

/-- A line: it is not empty, it neither begins nor ends with a space, and it is not too wide. -/
structure Line (wrap : Nat) (l : List G) : Prop where
  first : ∃ g, l.head? = some g ∧ ¬ Space g
  last : ∃ g, l.getLast? = some g ∧ ¬ Space g
  fits : ¬ Over wrap l

/-- The first word of a text. -/
def word (gs : List G) : List G := gs.takeWhile fun g => ¬ Space g

/-- The lines of a text. -/
inductive Wraps (wrap : Nat) : List G → List (List G) → Prop
  /-- There is nothing but spaces. -/
  | none {sp} : (∀ g ∈ sp, Space g) → Wraps wrap sp []
  /-- The last line. -/
  | last {l sp} : Line wrap l → (∀ g ∈ sp, Space g) → Wraps wrap (l ++ sp) [l]
  /-- The next word does not fit on the line. -/
  | words {l sp rest ls} : Line wrap l → sp ≠ [] → (∀ g ∈ sp, Space g) → Over wrap (l ++ sp ++ word rest) →
      Wraps wrap rest ls → (∃ g, rest.head? = some g ∧ ¬ Space g) → Wraps wrap (l ++ sp ++ rest) (l :: ls)
  /-- One word is too wide for a line, and as much as fits is on this line. -/
  | cut {l g rest ls} : Line wrap l → (∀ g ∈ l, ¬ Space g) → ¬ Space g → Over wrap (l ++ [g]) →
      Wraps wrap (g :: rest) ls → Wraps wrap (l ++ g :: rest) (l :: ls)

/-- The characters of some lines. -/
def chars (l : List G) : List Nat := (l.map (·.1)).flatten

/-- A text whose spaces are characters of their own, in which no character is wider than a line. -/
structure Even (wrap : Nat) (gs : List G) : Prop where
  spaces : ∀ g ∈ gs, g.1.head? = some 32 → g = ([32], 1)
  narrow : ∀ g ∈ gs, ¬ Over wrap [g]

end Clink.Wrap.Spec
