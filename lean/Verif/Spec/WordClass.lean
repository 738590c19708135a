import Verif.Model.WordClass

/-!
What the colours of the input line should be.
-/

namespace Clink.WordClass.Spec

/-- Equal but for the case of letters. -/
def Caseless (s t : List Nat) : Prop := s.map Color.lower = t.map Color.lower

/-- A face given to a range. -/
structure Paint where
  start : Nat
  length : Nat
  face : Nat
  overwrite : Bool

def Paint.Covers (a : Paint) (p : Nat) : Prop := a.start ≤ p ∧ p < a.start + a.length

instance (a : Paint) (p : Nat) : Decidable (a.Covers p) := by unfold Paint.Covers; infer_instance

/-- The ranges painted on the words, or on the characters. -/
def paints (words : Bool) : List Op → List Paint
  | [] => []
  | .apply w start n face o :: ops => if w = words then ⟨start, n, face, o⟩ :: paints words ops else paints words ops
  | _ :: ops => paints words ops

/-- Operations between the beginning of a line and `finish`. -/
def Drawing : Op → Prop
  | .line _ _ => False
  | .finish => False
  | _ => True

/-- `face` is the face that a position has after all the ranges were painted, if it had none (32) before: the face of the
last range that overwrites and of no other, or if none does, of the first range. -/
inductive Painted (p : Nat) : List Paint → Nat → Prop
  | none {l : List Paint} : (∀ a ∈ l, ¬ a.Covers p) → Painted p l 32
  | overwrite {pre post : List Paint} {a : Paint} : a.Covers p → a.overwrite = true → a.face ≠ 32 →
      (∀ b ∈ post, b.Covers p → b.overwrite = false) → Painted p (pre ++ a :: post) a.face
  | first {pre post : List Paint} {a : Paint} : (∀ b ∈ pre, ¬ b.Covers p) → a.Covers p → a.face ≠ 32 →
      (∀ b ∈ post, b.Covers p → b.overwrite = false) → Painted p (pre ++ a :: post) a.face

/-- No face painted is 32. -/
def Visible (l : List Paint) : Prop := ∀ a ∈ l, a.face ≠ 32

end Clink.WordClass.Spec
