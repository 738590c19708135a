import Verif.Spec.HistFile

/-!
What the files of the history database say.
-/

namespace Clink.Hist.Spec

/-- A line that can be written so that it is read back: it has no line breaks, does not start with `|`, and is not empty. -/
def IsLine (w : List Nat) : Prop := w ≠ [] ∧ (∀ c ∈ w, ¬ IsBreak c) ∧ ¬ IsDeleted w

instance (w : List Nat) : Decidable (IsLine w) := inferInstanceAs (Decidable (_ ∧ _ ∧ _))

/-- The text of a timestamp. -/
def IsStamp (w : List Nat) : Prop := ∀ c ∈ w, ¬ IsBreak c

instance (w : List Nat) : Decidable (IsStamp w) := inferInstanceAs (Decidable (∀ c ∈ w, _))

/-- A concurrency tag: `|CTAG_` and more, in a line of up to 50 bytes. -/
def IsTag (t : List Nat) : Prop := (∃ r, t = [124, 67, 84, 65, 71, 95] ++ r) ∧ (∀ c ∈ t, ¬ IsBreak c) ∧ t.length ≤ 49

/-- A file of lines: all are terminated, and shorter than `n` bytes. -/
structure IsFile (n : Nat) (f : List Nat) : Prop where
  complete : Complete f
  fits : Fits n f
  small : f.length ≤ 2 ^ 29 - 1

/-- A number and its decimal digits. -/
def value (w : List Nat) : Nat := w.foldl (fun n c => n * 10 + (c - 48)) 0

def IsNumber (w : List Nat) : Prop := w ≠ [] ∧ (∀ c ∈ w, 48 ≤ c ∧ c ≤ 57) ∧ w.length ≤ 10

/-- The offsets in a file of removals: a line with a tag, and a line for each offset. -/
def IsRemovals (tag : List Nat) (os : List Nat) (f : List Nat) : Prop :=
  ∃ ws : List (List Nat), f = tag ++ [10] ++ (ws.map (· ++ [10])).flatten ∧ ws.map value = os ∧ ∀ w ∈ ws, IsNumber w

/-- The last of equal elements are kept. -/
def lasts {α β : Type} [DecidableEq β] (key : α → β) : List α → List α
  | [] => []
  | x :: xs => if key x ∈ xs.map key then lasts key xs else x :: lasts key xs

/-- The last `n` elements. -/
def newest {α : Type} (n : Nat) (l : List α) : List α := l.drop (l.length - n)

/-- The history in a file: the texts and their timestamps. -/
def contents (f : List Nat) : List (List Nat × List Nat) := (stamped [] ([], none) (linesOf f)).map fun x => (x.2.1, x.2.2.1)

/-- What is left of the history in a file: with `uniq` only the last of equal lines. -/
def distinct (uniq : Bool) (f : List Nat) : List (List Nat × List Nat) := if uniq then lasts (·.1) (contents f) else contents f

end Clink.Hist.Spec
