import Verif.Model.Abbrev
import Verif.Spec.Utf
import Verif.Spec.StrCompare
/-
Specification vocabulary for C55: typed paths with abbreviated directory names.  Everything here is
written in characters (code points); `u8` and `u16` are the encodings of the Unicode standard.
-/
namespace Clink.Abbrev.Spec
open Clink.Utf (specUtf8 specUtf16 IsText)

def u8 (s : List Nat) : List Nat := s.flatMap specUtf8
def u16 (s : List Nat) : List Nat := s.flatMap specUtf16

/-- Both kinds of slash. -/
def Slash (c : Nat) : Prop := c = 47 ∨ c = 92

/-- Ordinary text: characters other than NUL and quotes. -/
def Plain (s : List Nat) : Prop := ∀ c ∈ s, IsText c ∧ c ≠ 34

/-- A disk as seen by a search: the names found for a text with a star, in order, and whether they are
directories.  `same` is equality of file names (the case is ignored). -/
structure Disk where
  ls : List Nat → List (List Nat × Bool)
  same : List Nat → List Nat → Bool

/-- The system shows this disk. -/
structure Shows (e : Env) (k : Disk) : Prop where
  find : ∀ p, Plain p → e.find (u16 p) = (k.ls p).map fun x => ⟨u16 x.1, x.2⟩
  same : ∀ a b, Plain a → Plain b → e.ieq (u16 a) (u16 b) = k.same a b
  names : ∀ p, ∀ x ∈ k.ls p, Plain x.1 ∧ x.1 ≠ [] ∧ ∀ c ∈ x.1, ¬ Slash c

/-- A search begins with the entries `.` and `..` in most directories; then neither counts. -/
def noDots : List (List Nat × Bool) → List (List Nat × Bool)
  | ([46], _) :: r => r.drop 1
  | l => l

/-- A directory name as typed, with the separators before it. -/
structure Piece where
  seps : List Nat
  name : List Nat
deriving Repr, DecidableEq

/-- What is found for a name typed after `base`. -/
def found (k : Disk) (base : List Nat) (p : Piece) : List (List Nat × Bool) :=
  noDots (k.ls (base ++ p.seps ++ p.name ++ [42]))

/-- The directories that the name can stand for. -/
def folders (k : Disk) (base : List Nat) (p : Piece) : List (List Nat) :=
  ((found k base p).filter (·.2)).map (·.1)

/-- The name stands for one directory: the first one found has that name, or there is only one. -/
def Chosen (k : Disk) (base : List Nat) (p : Piece) (d : List Nat) : Prop :=
  (folders k base p).head? = some d ∧ (k.same d p.name = true ∨ (folders k base p).length = 1)

/-- After `base`, the names stand for one directory each, and together for the path `out`. -/
inductive Walk (k : Disk) : List Nat → List Piece → List Nat → Prop where
  | nil (base) : Walk k base [] base
  | cons {base p ps d out} (h : Chosen k base p d) (hs : Walk k (base ++ p.seps.take 1 ++ d) ps out) :
      Walk k base (p :: ps) out

/-- The name can stand for several directories: the first two. -/
def Several (k : Disk) (base : List Nat) (p : Piece) (d1 d2 : List Nat) : Prop :=
  ∃ r, folders k base p = d1 :: d2 :: r ∧ k.same d1 p.name = false

/-- The entry which decides about upper and lower case: the first directory, or else the first entry from
the second directory on, that begins exactly as typed. -/
def model (k : Disk) (base : List Nat) (p : Piece) (d1 : List Nat) : Option (List Nat) :=
  if p.name <+: d1 then some d1
  else (((((found k base p).dropWhile (fun x => !x.2)).drop 1).dropWhile (fun x => !x.2)).map (·.1)).find?
    (fun n => decide (p.name <+: n))

/-- Comparing names as the completion settings say. -/
def nameKey (e : Env) (s : List Nat) : List Nat := StrCompare.key e.lower e.mode s

/-- What a name that can stand for several directories becomes: what the first two directories have in
common (and the entry that decides about upper and lower case), or what was typed if that is nothing. -/
def Becomes (e : Env) (k : Disk) (base : List Nat) (p : Piece) (d1 d2 add : List Nat) : Prop :=
  ∃ c, add = (if c = [] then p.name else c) ∧
    match model k base p d1 with
    | none => c <+: d1 ∧ nameKey e c = StrCompare.lcp (nameKey e d1) (nameKey e d2)
    | some b => c <+: b ∧ nameKey e c = StrCompare.lcp (nameKey e b) (StrCompare.lcp (nameKey e d1) (nameKey e d2))

/-- A path as typed: a drive or nothing, directory names, then the last separators and the last name. -/
structure Typed where
  drive : Option Nat
  pieces : List Piece
  seps : List Nat
  last : List Nat

def driveText : Option Nat → List Nat
  | none => []
  | some c => [c, 58]

def Piece.text (p : Piece) : List Nat := p.seps ++ p.name

def Typed.text (t : Typed) : List Nat := driveText t.drive ++ t.pieces.flatMap Piece.text ++ t.seps ++ t.last

def Letter (c : Nat) : Prop := (65 ≤ c ∧ c ≤ 90) ∨ (97 ≤ c ∧ c ≤ 122)

structure Piece.Ok (p : Piece) : Prop where
  seps : ∀ c ∈ p.seps, Slash c
  name : ∀ c ∈ p.name, ¬ Slash c
  some : p.name ≠ []
  plain : Plain p.name

/-- The parts of a path really are its parts, there is at least one directory, and the path is not the
name of a share or device. -/
structure Typed.Ok (t : Typed) : Prop where
  drive : ∀ c, t.drive = some c → Letter c
  first : ∃ p ps, t.pieces = p :: ps ∧ (∀ q ∈ ps, q.seps ≠ []) ∧
    (t.drive = none → p.seps.length ≤ 1 ∧ (p.seps = [] → ¬ ∃ c r, p.name = c :: 58 :: r ∧ Letter c))
  pieces : ∀ p ∈ t.pieces, p.Ok
  seps : t.seps ≠ [] ∧ ∀ c ∈ t.seps, Slash c
  last : (∀ c ∈ t.last, ¬ Slash c) ∧ Plain t.last

/-- Of several separators before the last name one is kept with the directories. -/
def Typed.extra (t : Typed) : List Nat := t.seps.dropLast.drop (t.seps.length - 2)
/-- What follows the directories. -/
def Typed.rest (t : Typed) : List Nat := if t.seps.length = 1 then t.seps ++ t.last else t.last

end Clink.Abbrev.Spec
