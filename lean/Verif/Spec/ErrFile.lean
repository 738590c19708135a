import Verif.Spec.Utf
/-
What the lines of a file are, and how numbers are written.  Nothing here refers to the model.
-/
namespace Clink.ErrFile.Spec
open Clink.Utf

/-- The lines of a text: each ends with a newline, only the last one need not. -/
def lines : List Nat → List (List Nat)
  | [] => []
  | c :: cs =>
    if c = 10 then [] :: lines cs
    else
      match lines cs with
      | [] => [[c]]
      | l :: ls => (c :: l) :: ls

/-- A line without the carriage return at its end. -/
def chomp (l : List Nat) : List Nat := if l.getLast? = some 13 then l.dropLast else l

def utf8 (cs : List Nat) : List Nat := cs.flatMap specUtf8

def utf16 (cs : List Nat) : List Nat := cs.flatMap specUtf16

/-- The bytes of a file in UTF-16, low byte first. -/
def bytes16 (cs : List Nat) : List Nat := (utf16 cs).flatMap fun u => [u % 256, u / 256]

/-- A code page: the characters that bytes stand for. -/
structure CodePage (chars : List Nat → List Nat) : Prop where
  text : ∀ l, ∀ c ∈ chars l, IsText c
  empty : chars [] = []

/-- The digits of a number. -/
def digits (n : Nat) : List Nat :=
  if n < 10 then [48 + n] else digits (n / 10) ++ [48 + n % 10]

def decimal (v : Int) : List Nat :=
  if v < 0 then 45 :: digits v.natAbs else digits v.natAbs

end Clink.ErrFile.Spec
