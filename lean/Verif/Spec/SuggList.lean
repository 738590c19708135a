import Verif.Model.SuggList

/-! What a user sees in a suggestion list. -/

namespace Clink.SuggList.Spec

/-- The selected suggestion exists and is on one of the rows; if the input line is selected the list is at its beginning. -/
def Good (s : S) : Prop :=
  -1 ≤ s.index ∧ s.index < s.count ∧ 0 ≤ s.top ∧ s.vis ≤ 10 ∧ (0 < s.vis → s.vis ≤ s.count ∧ (0 ≤ s.index → s.top ≤ s.index ∧ s.index < s.top + s.vis) ∧
    (s.index = -1 → s.top = 0))

/-- There is no empty row. -/
def Full (s : S) : Prop := 0 < s.vis ∧ s.top + s.vis ≤ s.count

/-- The margin: the setting, but not more than fits above and below the selected row. -/
def margin (ofs vis : Int) : Int := if ofs ≤ 0 then 0 else if 2 * ofs + 1 ≤ vis then ofs else (vis - 1) / 2

/-- Where an arrow key goes. -/
def target (wrap : Bool) (s : S) : Ev → Option Int
  | .up => some (if 0 ≤ s.index then s.index - 1 else if wrap then s.count - 1 else -1)
  | .down => some (if s.index + 1 < s.count then s.index + 1 else if wrap then -1 else s.index)
  | .wheelUp n => some (max 0 (s.index - n))
  | .wheelDown n => some (min (s.count - 1) (s.index + n))
  | .click row => some (s.top + row)
  | _ => none

end Clink.SuggList.Spec
