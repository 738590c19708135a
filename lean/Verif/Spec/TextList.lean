import Verif.Model.TextList

/-! What the user of the popup list may rely on. -/

namespace Clink.TextList.Spec

/-- The selected item exists and is on one of the rows; the rows are full if there are enough items.  A list that is filtered
to nothing has no selection. -/
def Good (count index top vis : Int) : Prop :=
  (count = 0 ∧ index = 0 ∧ top = 0) ∨
  (0 ≤ index ∧ index < count ∧ top ≤ index ∧ index < top + vis ∧ 0 ≤ top ∧ (top = 0 ∨ top + vis ≤ count))

/-- There are `ofs` items above and below the selected item, as far as the list has them. -/
def Margin (count index top vis ofs : Int) : Prop :=
  (top = 0 ∨ top + ofs ≤ index) ∧ (count ≤ top + vis ∨ index + ofs < top + vis)

/-- The margin is what the user has set, but there is always a row for the selected item between the margins. -/
def margin (setting vis : Int) : Int := max 0 (min setting ((vis - 1) / 2))

/-- `i` is the first item, going from `start` in direction `dir` and around, that satisfies `p`. -/
def First (p : Int → Bool) (count start dir i : Int) : Prop :=
  ∃ k : Nat, (k : Int) < count ∧ i = (start + dir * k) % count ∧ p i = true ∧ ∀ j : Nat, j < k → p ((start + dir * j) % count) = false

/-- The item at place `i` of the list as it is shown; with a filter, `filtered` are the numbers of the items that are left. -/
def shown {ι : Type} (items : List ι) (filtered : Option (List Nat)) (i : Nat) : Option ι :=
  match filtered with
  | none => items[i]?
  | some l => (l[i]?).bind (items[·]?)

/-- Where a key goes to. -/
def target (wrap : Bool) (count index : Int) : Ev → Option Int
  | .up => some (if index = 0 then (if wrap then count - 1 else 0) else index - 1)
  | .down => some (if index = count - 1 then (if wrap then 0 else count - 1) else index + 1)
  | .home => some 0
  | .fin => some (count - 1)
  | .wheelUp n => some (max 0 (index - n))
  | .wheelDown n => some (min (count - 1) (index + n))
  | _ => none

end Clink.TextList.Spec
