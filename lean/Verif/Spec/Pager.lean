import Verif.Model.Pager
/-
What lists that are shown page by page should be.
-/
namespace Clink.Pager.Spec

/-- The items that are seen. -/
def shown : List Ev → List Item
  | [] => []
  | .item x :: r => x :: shown r
  | .prompt _ :: r => shown r

/-- The number of lines of items. -/
def height (xs : List Item) : Nat := (xs.map (·.2)).sum

/-- The list ends early: the answer was to stop, or there is no answer. -/
def Stopped (out : List Ev) : Prop := out.getLast? = some (.prompt none) ∨ ∃ r, out.getLast? = some (.prompt (some (.stop, r)))

/-- How many lines an answer asks for. -/
def wanted : Key → Nat → Nat
  | .line, _ => 1
  | .half, rows => rows / 2
  | .page, rows => rows - 2
  | _, _ => 0

/-- `seg` are the items between a prompt with an answer and the next prompt. -/
def Between (out : List Ev) (k : Key) (rows : Nat) (seg : List Item) (before after : List Ev) : Prop :=
  ∃ b, out = before ++ .prompt (some (k, rows)) :: (seg.map .item ++ .prompt b :: after)

/-- `seg` are the items before the first prompt. -/
def First (out : List Ev) (seg : List Item) (after : List Ev) : Prop := ∃ b, out = seg.map .item ++ .prompt b :: after

end Clink.Pager.Spec
