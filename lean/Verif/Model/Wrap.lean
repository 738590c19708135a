import Verif.Model.Ellipsify
/-
Model of wrapping text that can contain control codes, `ecma48_wrapper` (clink/terminal/src/ecma48_wrapper.cpp:9-97).

Text is a list of bytes.  A pointer is a number of bytes from the start of the text behind its leading spaces.
The iterators are those of `Model.Ecma48` and `Model.Ellipsify`.  Asserts are not modelled, as in a release
build.  The number of steps is given; `none` means that it is not enough.
-/
namespace Clink.Wrap
open Doskey (peek)
open Ecma48 (Piece)
open Ellipsify (Env oneRun clen isChars piecesAt)

/-- `s`, `end_fits`, `end_word`, `next_word`, `cells` and `m_lines` (terminal/src/ecma48_wrapper.cpp:19-23).  A line is a
pointer and a length. -/
structure St where
  s : Nat
  fits : Nat
  word : Nat
  next : Nat
  cells : Int
  lines : List (Nat × Nat)
deriving Repr, DecidableEq

/-- The spaces at the start of a text (terminal/src/ecma48_wrapper.cpp:13-14, 58-59). -/
def spaces : List Nat → Nat
  | [] => 0
  | c :: cs => if c = 32 then spaces cs + 1 else 0

/-- What is done when a character does not fit (terminal/src/ecma48_wrapper.cpp:48-65). -/
def flush (text : List Nat) (st : St) : St :=
  let st := if st.fits ≤ st.s then { st with fits := st.word, next := st.word } else st
  let s := st.next + spaces (text.drop st.next)
  { s := s, fits := s, word := s, next := st.next, cells := 0, lines := st.lines ++ [(st.s, st.fits - st.s)] }

/-- The loop over the characters (terminal/src/ecma48_wrapper.cpp:33-72).  The iterator is at `p`, and its end is
`stop`. -/
def inner (env : Env) (text : List Nat) (wrap : Nat) (stop : Nat) : Nat → Nat → St → Option St
  | 0, _, _ => none
  | fuel + 1, p, st =>
    let l := (text.take stop).drop p
    let c := peek l
    if c = 0 then some { st with fits := st.word, next := p }
    else
      let r := oneRun env l
      let q := stop - r.2.length
      let w := clen false r.1
      let st := if c = 32 then { st with fits := st.word, next := q } else st
      if wrap ≠ 0 ∧ st.cells + w > wrap then
        let st := flush text st
        inner env text wrap stop fuel st.s st
      else
        inner env text wrap stop fuel q
          { st with cells := st.cells + w, word := if c ≠ 32 then q else st.word }

/-- The loop over the codes (terminal/src/ecma48_wrapper.cpp:25-78). -/
def outer (env : Env) (text : List Nat) (wrap fuel : Nat) : List (Piece × List Nat) → St → Option St
  | [], st => some st
  | (p, rest) :: ps, st =>
    if isChars p then
      let stop := text.length - rest.length
      match inner env text wrap stop fuel (stop - p.text.length) st with
      | none => none
      | some st => outer env text wrap fuel ps st
    else outer env text wrap fuel ps { st with fits := st.fits + p.text.length }

/-- The constructor (terminal/src/ecma48_wrapper.cpp:9-85): the text behind its leading spaces, and `m_lines`. -/
def wrapAt (env : Env) (fuel : Nat) (input : List Nat) (wrap : Nat) : Option (List (Nat × Nat)) :=
  let text := input.drop (spaces input)
  match outer env text wrap fuel (piecesAt text) ⟨0, 0, 0, 0, 0, []⟩ with
  | none => none
  | some st =>
    let lines := if st.fits > st.s then st.lines ++ [(st.s, st.fits - st.s)] else st.lines
    some (if lines = [] then [(0, 0)] else lines)

/-- What the calls of `next` give (terminal/src/ecma48_wrapper.cpp:88-97), without the newline that is added to every
line. -/
def wrapText (env : Env) (fuel : Nat) (input : List Nat) (wrap : Nat) : Option (List (List Nat)) :=
  (wrapAt env fuel input wrap).map fun ls =>
    ls.map fun l => ((input.drop (spaces input)).drop l.1).take l.2

end Clink.Wrap
