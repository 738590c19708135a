import Verif.Spec.Doskey

/-!
References to environment variables in a text, and what becomes of the text and of a position in it.
-/

namespace Clink.EnvExpand.Spec

open Doskey.Spec (flat)

/-- A character that stands for itself, or a reference. -/
inductive Seg
  | char (c : Nat)
  | ref (name : List Nat)
  deriving DecidableEq, Repr

def Seg.chars : Seg → List Nat
  | .char c => [c]
  | .ref name => 37 :: (name ++ [37])

def Seg.bytes (s : Seg) : List Nat := flat s.chars

/-- How a text is read.  A reference is a name between percent signs.  A percent sign stands for itself if it is the last
one, or right before another one. -/
inductive Reads : List Nat → List Seg → Prop
  | nil : Reads [] []
  | char {c : Nat} {cs : List Nat} {ss : List Seg} : c ≠ 37 → Reads cs ss → Reads (c :: cs) (.char c :: ss)
  | ref {name cs : List Nat} {ss : List Seg} : 37 ∉ name → name ≠ [] → Reads cs ss → Reads (37 :: (name ++ 37 :: cs)) (.ref name :: ss)
  | last {cs : List Nat} : 37 ∉ cs → Reads (37 :: cs) (.char 37 :: cs.map .char)
  | double {cs : List Nat} {ss : List Seg} : Reads (37 :: cs) ss → Reads (37 :: 37 :: cs) (.char 37 :: ss)

/-- The value that replaces the reference at position `k`, if the variable is defined. -/
def Seg.value (env : Nat → List Nat → Option (List Nat)) (k : Nat) : Seg → Option (List Nat)
  | .char _ => none
  | .ref name => env k (flat name)

/-- The bytes of a text. -/
def size (ss : List Seg) : Nat := (ss.map (·.bytes.length)).sum

/-- The expanded text; the first part of it is at position `k`. -/
def result (env : Nat → List Nat → Option (List Nat)) : Nat → List Seg → List Nat
  | _, [] => []
  | k, s :: ss => (s.value env k).getD s.bytes ++ result env (k + s.bytes.length) ss

/-- Is anything replaced? -/
def Any (env : Nat → List Nat → Option (List Nat)) (k : Nat) (ss : List Seg) : Prop :=
  ∃ pre s post, ss = pre ++ s :: post ∧ s.value env (k + size pre) ≠ none

/-- Where a position goes: it keeps its place among the parts that are not replaced, and a position in a reference goes to
the end of the value. -/
def cursor (env : Nat → List Nat → Option (List Nat)) : Nat → List Seg → Nat → Nat
  | _, [], p => p
  | k, s :: ss, p =>
    if p = 0 then 0
    else if p ≤ s.bytes.length then
      match s.value env k with
      | some v => v.length
      | none => p
    else ((s.value env k).getD s.bytes).length + cursor env (k + s.bytes.length) ss (p - s.bytes.length)

/-- Each replaced reference is as long as its value. -/
def Same (env : Nat → List Nat → Option (List Nat)) (k : Nat) (ss : List Seg) : Prop :=
  ∀ pre s post v, ss = pre ++ s :: post → s.value env (k + size pre) = some v → v.length = s.bytes.length

end Clink.EnvExpand.Spec
