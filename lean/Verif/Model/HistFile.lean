import Mathlib.Data.Nat.Notation

/-!
Model of reading history files.
Source: clink/lib/src/history_db.cpp.

A file is a list of bytes.  Files do not change while they are read (they are locked), except by `remove`, see
`Model.HistDb`.  Reading never fails.  Offsets are unbounded; `m_buffer_offset` starts at minus the buffer size, which the
code does modulo 2^64.  Files have less than 2^32 bytes.
-/

namespace Clink.Hist

/-- `is_line_breaker`, lib/src/history_db.cpp:646-649. -/
def isBreak (c : Nat) : Bool := c == 0 || c == 10 || c == 13

/-- `file_iter`, lib/src/history_db.cpp:320-341: the valid bytes of the buffer, `m_buffer_offset`, and the part of the file
that was not read. -/
structure FileIter where
  buf : List Nat
  off : Int
  rest : List Nat
  deriving DecidableEq, Repr

/-- The constructor and `set_file_offset(0)`, lib/src/history_db.cpp:548-569, 610-619.  The buffer is not initialised. -/
def FileIter.new (junk : List Nat) (file : List Nat) : FileIter := ⟨junk, -junk.length, file⟩

/-- `file_iter::next`, lib/src/history_db.cpp:571-595. -/
def FileIter.next (f : FileIter) (rollback : Nat) : FileIter × Nat :=
  if f.rest = [] then ({ f with buf := f.buf.set 0 0 }, 0)
  else
    let rollback := min rollback f.buf.length
    let keep := f.buf.drop (f.buf.length - rollback)
    let needed := min f.rest.length (f.buf.length - rollback)
    let g : FileIter := ⟨keep ++ f.rest.take needed, f.off + (f.buf.length - rollback : Nat), f.rest.drop needed⟩
    (g, g.buf.length)

/-- `line_iter`, lib/src/history_db.cpp:343-364. -/
structure LineIter where
  f : FileIter
  remaining : Nat
  first : Bool
  eating : Bool
  deleted : Nat
  removals : List Nat
  deriving DecidableEq, Repr

/-- A new `line_iter`, lib/src/history_db.cpp:624-631; the removals are those that `for_each_removal` finds. -/
def LineIter.new (junk file removals : List Nat) : LineIter := ⟨.new junk file, 0, true, false, 0, removals⟩

/-- `provision`, lib/src/history_db.cpp:640-643. -/
def LineIter.provision (i : LineIter) : LineIter :=
  let r := i.f.next i.remaining
  { i with f := r.1, remaining := r.2 }

/-- The largest offset in a line id: 29 bits, lib/src/history_db.cpp:196-210. -/
def maxOffset : Nat := 2 ^ 29 - 1

/-- A timestamp and the offset of its line; no bytes if there is none. -/
structure Stamp where
  text : List Nat := []
  offset : Option Nat := none
  deriving DecidableEq, Repr

/-- A line that was read: the offset in its id, its text, and the timestamp. -/
structure Entry where
  offset : Nat
  text : List Nat
  stamp : Stamp := {}
  deriving DecidableEq, Repr

def ctagPrefix : List Nat := [124, 67, 84, 65, 71, 95]
def timePrefix : List Nat := [124, 9, 116, 105, 109, 101, 61]

/-- The first non-empty line, lib/src/history_db.cpp:672-689: `m_first_line`, `m_eating_ctag` and `eating_ctag`.  `line` is
the buffer from its start. -/
def LineIter.start (i : LineIter) (line : List Nat) : LineIter × Bool :=
  match line with
  | [] => (i, i.eating)
  | c :: _ =>
    if i.first then
      if c = 124 then
        let eat := decide (line.length < 6) || line.take 6 == ctagPrefix
        ({ i with first := false, eating := eat }, eat)
      else ({ i with first := false }, i.eating)
    else (i, i.eating)

/-- The end of an iteration that has a line, lib/src/history_db.cpp:707-750: `.inl` goes on with a timestamp, `.inr` is a
line.  (`strncmp` for the timestamp could look at bytes behind a line that fills the buffer.) -/
def LineIter.line (i : LineIter) (eating : Bool) (offset : Nat) (text : List Nat) (stamp : Stamp) : LineIter × (Stamp ⊕ Entry) :=
  let big := decide (offset ≥ maxOffset)
  let offset := if big then maxOffset else offset
  if timePrefix <+: text then (i, .inl ⟨text.drop 7, some offset⟩)
  else
    let stamp := if text.head? = some 124 then {} else stamp
    if text.head? = some 124 || eating || (!big && i.removals.contains offset) then
      ({ i with deleted := if eating then i.deleted else i.deleted + 1 }, .inl stamp)
    else (i, .inr ⟨offset, text, stamp⟩)

/-- One iteration of `line_iter::next`, lib/src/history_db.cpp:658-750. -/
def LineIter.iteration (i : LineIter) (stamp : Stamp) : LineIter × (Stamp ⊕ Entry) :=
  let pos := i.f.buf.length - i.remaining
  let line := i.f.buf.drop pos
  let skip := (line.takeWhile isBreak).length
  let line := line.dropWhile isBreak
  let pos := pos + skip
  let i := { i with remaining := i.remaining - skip }
  let (i, eating) := i.start line
  let text := line.takeWhile fun c => !isBreak c
  let ended := decide (text.length < line.length)
  let i := if ended then { i with eating := false } else i
  if !ended && decide (pos ≠ 0) then (i.provision, .inl stamp)
  else
    let i := { i with remaining := i.remaining - text.length, first := false }
    i.line eating (i.f.off + pos).toNat text stamp

/-- What is left to read; it gets smaller in every iteration. -/
def LineIter.measure (i : LineIter) : Nat := 2 * i.f.rest.length + i.remaining

/-- `line_iter::next`, lib/src/history_db.cpp:652-751.  The outer `none` is non-termination. -/
def LineIter.nextFrom (i : LineIter) (stamp : Stamp) : Option (LineIter × Option Entry) :=
  let j := if i.remaining = 0 then i.provision else i
  if j.remaining = 0 then some (j, none)
  else
    match j.iteration stamp with
    | (k, .inr e) => some (k, some e)
    | (k, .inl stamp) => if k.measure < i.measure then k.nextFrom stamp else none
termination_by i.measure

def LineIter.next (i : LineIter) : Option (LineIter × Option Entry) := i.nextFrom {}

/-- `while (id = iter.next(...))`: all lines.  None if it does not terminate. -/
def LineIter.readAll (i : LineIter) : Option (List Entry × LineIter) :=
  match i.next with
  | none => none
  | some (j, none) => some ([], j)
  | some (j, some e) => if j.measure < i.measure then j.readAll.map fun r => (e :: r.1, r.2) else none
termination_by i.measure

/-- All lines of a file, with a buffer of `size` bytes. -/
def readLines (junk file removals : List Nat) : Option (List Entry) := ((LineIter.new junk file removals).readAll).map (·.1)

end Clink.Hist
