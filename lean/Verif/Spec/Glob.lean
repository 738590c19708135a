import Verif.Model.Glob
import Verif.Spec.Path

/-! What an enumeration of files should give. -/

namespace Clink.Glob.Spec

open StrCompare (isSep)

/-- What is asked for. -/
structure Ask where
  files : Bool
  dirs : Bool
  hidden : Bool
  system : Bool
  dots : Bool
  /-- Only what was written before this time. -/
  before : Option Nat

/-- The attribute with the value `v` (1, 2, 4, ...) is set. -/
def Has (e : Entry) (v : Nat) : Prop := e.attr / v % 2 = 1

/-- An entry that was asked for. -/
def Wanted (a : Ask) (e : Entry) : Prop :=
  (Has e 16 → a.dirs = true) ∧ (¬ Has e 16 → a.files = true) ∧ (Has e 2 → a.hidden = true) ∧ (Has e 4 → a.system = true) ∧
  (e.name = [46] ∨ e.name = [46, 46] → a.dots = true) ∧ ∀ t, a.before = some t → e.write < t

instance (e : Entry) (v : Nat) : Decidable (Has e v) := by unfold Has; infer_instance

/-- The text of an entry in a directory: the directory, the name, and a backslash for a directory.  A backslash is put between the
directory and the name if there is a directory that does not end with a separator and is not only a drive. -/
def Called (alpha : Nat → Bool) (dir : List Nat) (suffix : Bool) (e : Entry) (out : List Nat) : Prop :=
  ∃ D, out = D ++ e.name ++ (if Has e 16 ∧ suffix = true then [92] else []) ∧ (D = dir ∨ (D = dir ++ [92] ∧ dir ≠ [] ∧ ∀ x c, dir = x ++ [c] → isSep c = false)) ∧
    (D = [] ∨ (∃ x c, D = x ++ [c] ∧ isSep c = true) ∨ Path.Spec.rest alpha (D ++ e.name) = e.name)

/-- A name that a file can have. -/
def Name (e : Entry) : Prop := 0 ∉ e.name ∧ ∀ c ∈ e.name, isSep c = false

/-- The tags of the type, in their order. -/
def tags (e : Entry) (link orphaned : Bool) : List String :=
  [if Has e 16 then "dir" else "file"] ++ (if link then ["link"] else []) ++ (if link && orphaned then ["orphaned"] else []) ++
  (if Has e 2 then ["hidden"] else []) ++ (if Has e 4 then ["system"] else []) ++ (if Has e 1 then ["readonly"] else [])

/-- With commas between them. -/
def commas : List String → List Nat
  | [] => []
  | [s] => s.toList.map Char.toNat
  | s :: l => s.toList.map Char.toNat ++ 44 :: commas l

/-- A symbolic link that is not offline. -/
def Link (e : Entry) : Prop := Has e 1024 ∧ ¬ Has e 4096 ∧ e.tag = 0xA000000C

instance (e : Entry) : Decidable (Link e) := by unfold Link; infer_instance

end Clink.Glob.Spec
