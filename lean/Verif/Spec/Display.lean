import Verif.Model.Display
import Verif.Spec.Ellipsify

/-!
How an input line should be laid out on the rows of the screen.  The line is given by its characters as they are seen, each with its
width, see `Ellipsify.Spec.Glyphs`.
-/

namespace Clink.Display.Spec

open Doskey.Spec (flat)

/-- A line, and its characters as they are seen.  Control characters are those of ASCII. -/
structure Line (env : Ellipsify.Env) (cs : List Nat) (gs : List (List Nat × Int)) : Prop where
  glyphs : Ellipsify.Spec.Glyphs env cs gs
  text : ∀ c ∈ cs, Utf.IsText c
  ctrl : ∀ c ∈ cs, env.wc c < 0 → c < 128

/-- What is put on the screen. -/
inductive Part
  /-- The rest goes to the next row. -/
  | newline
  /-- Bytes of the given number of cells. -/
  | cells (bytes : List Nat) (n : Nat)
  deriving DecidableEq, Repr

/-- A part of what is shown for a character of `len` bytes, `pos` bytes from the start of the line. -/
structure Piece where
  pos : Nat
  len : Nat
  /-- The first part that is shown for the character. -/
  first : Bool
  /-- Part of a control character. -/
  ctrl : Bool
  part : Part
  deriving DecidableEq, Repr

/-- The number of cells. -/
def Piece.width (q : Piece) : Nat :=
  match q.part with
  | .newline => 0
  | .cells _ n => n

def Piece.newline (q : Piece) : Bool := q.part == .newline

/-- The bytes on the screen. -/
def Piece.bytes (q : Piece) : List Nat :=
  match q.part with
  | .newline => []
  | .cells b _ => b

/-- The letter behind `^` for a control character. -/
def letter (c : Nat) : Nat := if c < 32 then c + 64 else 63

/-- What is shown for a character at a position.  Control characters are shown as `^X`, and both parts can be on different rows. -/
def shown (lf : Bool) (pos : Nat) (w : List Nat) (n : Int) : List Piece :=
  if lf ∧ w = [10] then [⟨pos, 1, true, false, .newline⟩]
  else if n < 0 then [⟨pos, (flat w).length, true, true, .cells [94] 1⟩, ⟨pos, (flat w).length, false, true, .cells (w.map letter) 1⟩]
  else [⟨pos, (flat w).length, true, false, .cells (flat w) n.toNat⟩]

/-- What is shown for some characters. -/
def pieces (lf : Bool) : Nat → List (List Nat × Int) → List Piece
  | _, [] => []
  | pos, (w, n) :: gs => shown lf pos w n ++ pieces lf (pos + (flat w).length) gs

def width (r : List Piece) : Nat := (r.map Piece.width).sum

def Ends (r : List Piece) : Prop := ∃ q, r.getLast? = some q ∧ q.newline

/-- The column where a row starts if there are the rows `A` before it: the input line starts behind the prompt. -/
def startCol (x : Nat) (A : List (List Piece)) : Nat := if A = [] then x else 0

/-- The pieces are arranged on rows. -/
structure Arranged (W x : Nat) (ps : List Piece) (rows : List (List Piece)) : Prop where
  /-- All of them are shown, in order. -/
  all : rows.flatten = ps
  /-- Behind a newline there is a new row. -/
  newline : ∀ A a q b B, rows = A ++ (a ++ q :: b) :: B → q.newline → b = [] ∧ B ≠ []
  /-- There is room for all that is on a row, except that something that is too wide for any row can be on a row of its own. -/
  fits : ∀ A a q b B, rows = A ++ (a ++ q :: b) :: B → q.newline = false → (A = [] ∨ a ≠ []) → startCol x A + width a + q.width ≤ W
  /-- A new row is used only if it is needed: behind a newline, if there is no room for what comes next, or if there is no
  room for the cursor behind the line. -/
  needed : ∀ A r r' B, rows = A ++ r :: r' :: B → ¬ Ends r →
    (∃ q t, r' = q :: t ∧ q.newline = false ∧ W < startCol x A + width r + q.width) ∨ (r' = [] ∧ B = [] ∧ W ≤ startCol x A + width r)
  /-- There is room for the cursor behind the line. -/
  room : ∀ A r, rows = A ++ [r] → r ≠ [] ∨ A = [] → startCol x A + width r < W
  /-- There is at least one row. -/
  some : rows ≠ []

/-- The position where some pieces start; `total` is the length of the line. -/
def startPos (total : Nat) (ps : List Piece) : Nat :=
  match ps with
  | [] => total
  | q :: _ => q.pos

/-- The bytes with their faces: the face of a byte is the one of its position. -/
def Piece.faced (face : Nat → Nat) (q : Piece) : List (Nat × Nat) :=
  if q.ctrl then q.bytes.map fun b => (b, face q.pos) else q.bytes.zipIdx.map fun (b, i) => (b, face (q.pos + i))

/-- The last row ends because there is no room. -/
def Goes (A : List (List Piece)) : Prop := ∃ A' r, A = A' ++ [r] ∧ ¬ Ends r

/-- A row of the display holds the pieces `r`, with the rows `A` before it and the rows `B` behind it. -/
structure Holds (W x total : Nat) (face : Nat → Nat) (A : List (List Piece)) (r : List Piece) (B : List (List Piece)) (d : Row) : Prop where
  /-- The text; the row is filled with spaces if it ends because there is no room. -/
  text : d.text = (r.map (Piece.faced face)).flatten ++ List.replicate d.trail (32, 48)
  trail : (B = [] ∨ Ends r → d.trail = 0) ∧ (B ≠ [] → ¬ Ends r → d.trail = W - (startCol x A + width r))
  /-- The part of the line. -/
  start : d.start = startPos total (r ++ B.flatten)
  stop : (∀ a q, r = a ++ [q] → q.newline → d.stop = q.pos) ∧ (¬ Ends r → d.stop = startPos total B.flatten)
  left : d.x = startCol x A
  lastcol : d.lastcol = startCol x A + width r
  newline : d.newline = true ↔ Ends r
  /-- The cells at the start of the row that belong to a control character for which there was no room, or not enough room. -/
  lead : 2 ≤ W → (¬ Goes A → d.lead = 0) ∧ (Goes A → d.lead = (r.takeWhile fun q => q.ctrl && q.pos == startPos total r).length)

/-- The cursor is on the character that holds the byte at the position, or behind the line; the line starts on row `row0`. -/
structure Cursor (row0 x total point : Nat) (rows : List (List Piece)) (row col : Nat) : Prop where
  char : ∀ A a q b B, rows = A ++ (a ++ q :: b) :: B → q.first → q.pos ≤ point → point < q.pos + q.len →
    row = row0 + A.length ∧ col = startCol x A + width a
  behind : ∀ A r, rows = A ++ [r] → point = total → row = row0 + A.length ∧ col = startCol x A + width r

/-- The rows `top` to `top + offset` are shown, they exist, and the one with the cursor is among them. -/
structure InView (v : View) (top : Nat) : Prop where
  first : v.botlin ≤ top
  last : top + v.offset < v.count
  above : top ≤ v.vpos
  below : v.vpos ≤ top + v.offset

/-- The cursor is on the mark at the start of the first row that is shown (there is one if there are rows above it), or in the last column of
the last row that is shown, and there are rows below it. -/
def AtEdge (v : View) (top : Nat) : Prop :=
  v.botlin < top ∧ v.vpos = top ∧ v.cpos = v.x top ∨ top + v.offset + 1 < v.count ∧ v.vpos = top + v.offset ∧ v.cpos + 1 = v.width

/-- The cursor is on the mark at the end of the last row that is shown (there is one if there are rows below it); the mark is in the last column but one,
see `Clink.Redraw.C46_mark_place`. -/
def OnLastMark (v : View) (top : Nat) : Prop := top + v.offset + 1 < v.count ∧ v.vpos = top + v.offset ∧ v.cpos + 2 = v.width

end Clink.Display.Spec
