import Verif.Model.StrCompare

/-!
What path normalisation and joining should do, stated on whole strings.
-/

namespace Clink.Path.Spec

open StrCompare (isSep)

/-- `l` without the leading run of separators. -/
def afterSeps (l : List Nat) : List Nat := l.dropWhile isSep
/-- `l` from its first separator on. -/
def fromSep (l : List Nat) : List Nat := l.dropWhile (fun c => !isSep c)

/-- The part of a UNC path after the share, given what follows the leading separators. -/
def afterShare (l : List Nat) : List Nat := fromSep (afterSeps (fromSep l))

/-- What follows `\\?\` (and any further separators). -/
def afterSsqs : List Nat → Option (List Nat)
  | a :: b :: 63 :: d :: l => if isSep a && isSep b && isSep d then some (afterSeps l) else none
  | _ => none

/-- What follows `UNC\`, in any case. -/
def afterUncWord : List Nat → Option (List Nat)
  | u :: n :: c :: d :: l =>
    if (u == 85 || u == 117) && (n == 78 || n == 110) && (c == 67 || c == 99) && isSep d
    then some (afterSeps l) else none
  | _ => none

/-- The device namespace `\\.` or `\\.\`, with any number of leading separators. -/
def deviceLike : List Nat → Bool
  | 46 :: [] => true
  | 46 :: c :: _ => isSep c
  | _ => false

/-- A path naming a server and share: everything after the share. -/
def uncRest (l : List Nat) : Option (List Nat) :=
  match l with
  | a :: b :: l' =>
    if isSep a && isSep b then
      if deviceLike (afterSeps l') then none
      else match afterSsqs l with
        | some r => (afterUncWord r).map afterShare
        | none => some (afterShare (afterSeps l'))
    else none
  | _ => none

/-- A drive letter is removed. -/
def afterLetter (alpha : Nat → Bool) : List Nat → List Nat
  | c :: 58 :: l => if alpha c then l else c :: 58 :: l
  | l => l

/-- The path without its drive, `\\?\` or UNC prefix. -/
def rest (alpha : Nat → Bool) (l : List Nat) : List Nat :=
  match uncRest l with
  | some r => r
  | none => afterLetter alpha ((afterSsqs l).getD l)

/-- The drive, `\\?\` or UNC prefix. -/
def root (alpha : Nat → Bool) (l : List Nat) : List Nat := l.take (l.length - (rest alpha l).length)

/-- The pieces between separators. -/
def pieces : List Nat → List (List Nat)
  | [] => [[]]
  | c :: l =>
    if isSep c then [] :: pieces l
    else match pieces l with
      | [] => [[c]]
      | x :: xs => (c :: x) :: xs

/-- The components of a path: its non-empty pieces. -/
def names (l : List Nat) : List (List Nat) := (pieces l).filter (· ≠ [])

/-- One component is resolved against the components before it (newest first).  `clamp`: there is
nothing above the start. -/
def resolve1 (clamp : Bool) (st : List (List Nat)) (n : List Nat) : List (List Nat) :=
  if n = [46] then st
  else if n = [46, 46] then
    match st with
    | [] => if clamp then [] else [n]
    | t :: st' => if t = [46, 46] then n :: st else st'
  else n :: st

/-- `.` and `..` resolved. -/
def resolve (clamp : Bool) (l : List (List Nat)) : List (List Nat) := (l.foldl (resolve1 clamp) []).reverse

/-- A name that begins with a dot but is not `.` or `..`. -/
def dotName (n : List Nat) : Bool := n.head? == some 46 && n != [46] && n != [46, 46]

/-- No two separators in a row. -/
def NoDouble : List Nat → Prop
  | a :: b :: l => ¬ (isSep a ∧ isSep b) ∧ NoDouble (b :: l)
  | _ => True

end Clink.Path.Spec
