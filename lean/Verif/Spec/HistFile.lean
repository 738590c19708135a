import Mathlib.Data.Nat.Notation

/-!
What a history file says.
-/

namespace Clink.Hist.Spec

/-- Bytes that end a line. -/
def IsBreak (c : Nat) : Prop := c = 0 ∨ c = 10 ∨ c = 13

instance (c : Nat) : Decidable (IsBreak c) := inferInstanceAs (Decidable (_ ∨ _))

/-- The non-empty lines that are terminated, with their offsets, and, if `last`, the line at the end that is not: `o` is the
offset of the bytes, `cur` the part of the current line in front of them. -/
def lines (last : Bool) : Nat → List Nat → List Nat → List (Nat × List Nat)
  | o, cur, [] => if last ∧ cur ≠ [] then [(o - cur.length, cur)] else []
  | o, cur, c :: r =>
    if IsBreak c then (if cur = [] then [] else [(o - cur.length, cur)]) ++ lines last (o + 1) [] r
    else lines last (o + 1) (cur ++ [c]) r

def linesOf (file : List Nat) : List (Nat × List Nat) := lines false 0 [] file

/-- `|` tab `time=`. -/
def IsTime (w : List Nat) : Prop := ∃ t, w = [124, 9, 116, 105, 109, 101, 61] ++ t

/-- Lines that start with `|` were deleted or are not for the user. -/
def IsDeleted (w : List Nat) : Prop := ∃ t, w = 124 :: t

instance (w : List Nat) : Decidable (IsDeleted w) := match w with
  | [] => .isFalse (by simp [IsDeleted])
  | c :: t => if h : c = 124 then .isTrue ⟨t, by rw [h]⟩ else .isFalse (by simp [IsDeleted, h])

/-- What the user sees: the lines that are not deleted, neither in the file nor by deferred removals. -/
def visible (removed : List Nat) (ls : List (Nat × List Nat)) : List (Nat × List Nat) :=
  ls.filter fun l => ¬ IsDeleted l.2 ∧ l.1 ∉ removed

instance (w : List Nat) : Decidable (IsTime w) :=
  decidable_of_iff ([124, 9, 116, 105, 109, 101, 61] <+: w) ⟨fun ⟨t, h⟩ => ⟨t, h.symm⟩, fun ⟨t, h⟩ => ⟨t, h.symm⟩⟩

/-- The visible lines with their timestamps: offset, text, and text and offset of the timestamp.  A timestamp belongs to
the next line; a deleted line in between takes it away, but a line with a deferred removal does not. -/
def stamped (removed : List Nat) : List Nat × Option Nat → List (Nat × List Nat) → List (Nat × List Nat × List Nat × Option Nat)
  | _, [] => []
  | t, (o, w) :: ls =>
    if IsTime w then stamped removed (w.drop 7, some o) ls
    else if IsDeleted w then stamped removed ([], none) ls
    else if o ∈ removed then stamped removed t ls
    else (o, w, t) :: stamped removed ([], none) ls

/-- Every line is terminated. -/
def Complete (file : List Nat) : Prop := ∀ c, file.getLast? = some c → IsBreak c

/-- Every line fits with its terminator into so many bytes. -/
def Fits (size : Nat) (file : List Nat) : Prop := ∀ w, w <:+: file → (∀ c ∈ w, ¬ IsBreak c) → w.length < size

end Clink.Hist.Spec
