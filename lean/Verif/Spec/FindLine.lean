import Verif.Model.FindLine
/-
What searching the screen should do, from the documentation of `console.findprevline` (clink/lua/src/console_api.cpp:718-757).
-/
namespace Clink.FindLine.Spec

/-- A text without the blanks at its end. -/
def Trimmed (space : Nat → Bool) (cs t : List Nat) : Prop :=
  ∃ blanks, cs = t ++ blanks ∧ (∀ c ∈ blanks, space c) ∧ ∀ c, t.getLast? = some c → space c = false

/-- The line contains the text. -/
def HasText (space : Nat → Bool) (l : Line) (t : List Nat) : Prop := ∃ u, Trimmed space l.chars u ∧ t <:+: u

/-- One of the cells has one of the attributes. -/
def HasAttr (cells attrs : List Nat) (mask : Nat) : Prop := ∃ a ∈ cells, ∃ b ∈ attrs, (a % 256) &&& mask = b &&& mask

/-- `i` is the nearest line from `k` upwards for which `P` is true; lines are counted from 0. -/
def Up (scr : List Line) (P : Line → Prop) (k i : Nat) : Prop :=
  i ≤ k ∧ (∃ l, scr[i]? = some l ∧ P l) ∧ ∀ j l, i < j → j ≤ k → scr[j]? = some l → ¬ P l

/-- The same downwards, below line `e`. -/
def Down (scr : List Line) (P : Line → Prop) (k e i : Nat) : Prop :=
  k ≤ i ∧ i < e ∧ (∃ l, scr[i]? = some l ∧ P l) ∧ ∀ j l, k ≤ j → j < i → scr[j]? = some l → ¬ P l

/-- What a line must be for a search with a regular expression and perhaps attributes: the expression is found in the line without the blanks
at its end, and the attributes in what was found first. -/
def HasRegex (space : Nat → Bool) (search : List Nat → Option (Nat × Nat)) (attrs : List Nat) (mask : Nat) (l : Line) : Prop :=
  ∃ u p n, Trimmed space l.chars u ∧ search u = some (p, n) ∧ (attrs = [] ∨ HasAttr ((l.attrs.drop p).take n) attrs mask)

/-- The line at which the search starts, counted from 0: the line given, or the first or last line if it is outside. -/
def startLine (numLines arg : Int) : Nat := (max (min (arg - 1) (numLines - 1)) 0).toNat

end Clink.FindLine.Spec
