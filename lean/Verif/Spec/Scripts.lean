import Verif.Spec.Utf
import Verif.Spec.StrCompare

/-! What C66 says, in terms of lists of script paths.  Texts are lists of code points. -/

namespace Clink.Scripts.Spec
open Clink.Utf (IsText specUtf8 specUtf16)

def utf8 (cs : List Nat) : List Nat := cs.flatMap specUtf8

/-- The registry has the text (an absent value is the empty text). -/
def Stored (reg : Option (List Nat)) (text : List Nat) : Prop :=
  (∀ c ∈ text, IsText c) ∧ (reg = none ∧ text = [] ∨ reg = some (text.flatMap specUtf16))

/-- The pieces between semicolons. -/
def pieces : List Nat → List (List Nat)
  | [] => [[]]
  | c :: t =>
    if c = 59 then [] :: pieces t
    else
      match pieces t with
      | [] => [[c]]
      | p :: ps => (c :: p) :: ps

/-- The script paths in a list: empty ones do not count. -/
def paths (text : List Nat) : List (List Nat) := (pieces text).filter (· ≠ [])

/-- The path given by the arguments: they are separated by spaces; empty ones at the beginning do not count. -/
def given (args : List (List Nat)) : List Nat := [32].intercalate (args.dropWhile (· = []))

/-- The same path, apart from case and the number and kind of separators (`key` is from the specification of C29). -/
def Same (lower : Nat → Nat) (p q : List Nat) : Prop :=
  StrCompare.key lower ⟨1, false, false⟩ p = StrCompare.key lower ⟨1, false, false⟩ q

instance (lower : Nat → Nat) (p q : List Nat) : Decidable (Same lower p q) := by unfold Same; infer_instance

/-- Installing and uninstalling one path. -/
def install (lower : Nat → Nat) (ps : List (List Nat)) (v : List Nat) : List (List Nat) :=
  if ∃ p ∈ ps, Same lower p v then ps else ps ++ [v]
def uninstall (lower : Nat → Nat) (ps : List (List Nat)) (v : List Nat) : List (List Nat) :=
  ps.filter fun p => ¬ Same lower p v

/-- A command: to install or to uninstall what the arguments say, or to uninstall everything. -/
inductive Cmd
  | change (inst : Bool) (args : List (List Nat))
  | all

/-- Arguments that give a path. -/
def Good (args : List (List Nat)) : Prop := (∀ a ∈ args, ∀ c ∈ a, IsText c) ∧ given args ≠ [] ∧ 59 ∉ given args

/-- The paths after a command. -/
def after (lower : Nat → Nat) (ps : List (List Nat)) : Cmd → List (List Nat)
  | .change true args => install lower ps (given args)
  | .change false args => uninstall lower ps (given args)
  | .all => []

end Clink.Scripts.Spec
