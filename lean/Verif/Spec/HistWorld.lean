import Verif.Model.HistDb
import Verif.Spec.HistDb

/-!
The files of a session that are in order, and what adding lines should do.
-/

namespace Clink.Hist.Spec

/-- A bank whose files are in order.  `os` are the offsets in the file of removals. -/
structure BankOk (n : Nat) (b : Bank) (os : List Nat) : Prop where
  file : IsFile n b.lines
  direct : b.removals = none → os = []
  tagged : ∀ r, b.removals = some r → r.length ≤ 2 ^ 29 - 1 ∧ ∃ tag body, IsTag tag ∧ b.lines = tag ++ [10] ++ body ∧ IsRemovals tag os r

/-- The banks that a session has open are in order. -/
structure Ready (n : Nat) (w : World) (d : Db) : Prop where
  master : ∀ b, w.masterBank d = some b → ∃ os, BankOk n b os
  session : ∀ b, w.sessionBank d = some b → BankOk n b []
  removals : d.removals = true → d.session = true

/-- The files of a session are smaller than 512 MB. -/
structure Small (w : World) (d : Db) : Prop where
  master : w.master.length ≤ 2 ^ 29 - 1
  lines : ∀ f, (w.sess d.id).lines = some f → f.length ≤ 2 ^ 29 - 1
  removals : ∀ f, (w.sess d.id).removals = some f → f.length ≤ 2 ^ 29 - 1

/-- What a session sees: for each line whether it is in the master file, its offset and its text. -/
abbrev View := List (Bool × Nat × List Nat)

def View.texts (v : View) : List (List Nat) := v.map (·.2.2)

/-- Adding a line: `ignore`, `erase_prev`, `add`. -/
def adding (mode : Nat) (x : Bool × Nat × List Nat) (v : View) : View :=
  if mode = 1 then (if x.2.2 ∈ v.texts then v else v ++ [x])
  else if mode = 2 then (v.filter fun y => decide (y.2.2 ≠ x.2.2)) ++ [x]
  else v ++ [x]

/-- The first of equal elements are kept. -/
def firsts {α : Type} [DecidableEq α] : List α → List α
  | [] => []
  | x :: xs => x :: (firsts xs).filter (· ≠ x)

end Clink.Hist.Spec
