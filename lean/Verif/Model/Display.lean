import Verif.Model.Ellipsify

/-!
Model of laying out the input line on the rows of the screen, of scrolling it, and of finding the place of a mouse click.
Source: clink/lib/src/display_readline.cpp (`display_lines::parse`, `display_lines::next_line`, a part of
`display_manager::display`, and `translate_xy_to_readline`).

Text is a list of bytes, read as in `Model.Ellipsify`.  Numbers have no limit.  Asserts and running out of memory are not
modelled, nor the NUL behind each row.  `DISPLAY_TABS` and `USE_SUGGESTION_HINT_INLINE` play no part: the former is not defined
anywhere, the latter matters for `rl_get_face_func` only, which is a parameter.
-/

namespace Clink.Display

open Doskey (peek next between)
open Ellipsify (Env oneRun oneRun_lt)

/-- `display_line`, display_readline.cpp:391-421; `text` is `m_chars` with `m_faces`, `m_len` of them. -/
structure Row where
  text : List (Nat × Nat) := []
  start : Nat := 0
  stop : Nat := 0
  x : Nat := 0
  lastcol : Nat := 0
  lead : Nat := 0
  trail : Nat := 0
  newline : Bool := false
  deriving DecidableEq, Repr

/-- What `parse` depends on besides its arguments: `_rl_screenwidth`, `rl_point`, whether a newline goes to the next row
(`!_rl_horizontal_scroll_mode && _rl_term_up && *_rl_term_up`), and `rl_get_face_func` with the active region. -/
structure Setup where
  width : Nat
  point : Nat
  lf : Bool
  face : Nat → Nat

/-- `display_lines` while parsing, display_readline.cpp:514-561: the rows before the current one, the current one,
and the variables of `parse`; `pos` is `iter.get_pointer() - buffer`. -/
structure Lines where
  rows : List Row := []
  d : Row := {}
  col : Nat := 0
  index : Nat := 0
  pos : Nat := 0
  vpos : Nat := 0
  cpos : Nat := 0
  deriving DecidableEq, Repr

/-- What `iter.next()` finds: the code point, the bytes, and `character_wcwidth_signed()`. -/
structure Ch where
  c : Nat
  bytes : List Nat
  w : Int
  deriving DecidableEq, Repr

/-- `while (const uint32 c = iter.next())`, display_readline.cpp:596. -/
def chars (env : Env) (l : List Nat) : List Ch :=
  if h : peek l = 0 then [] else { c := peek l, bytes := between l (oneRun env l).2, w := (oneRun env l).1 } :: chars env (oneRun env l).2
termination_by l.length
decreasing_by exact oneRun_lt env h

/-- `FACE_NORMAL`, lib/include/lib/display_readline.h:66. -/
def faceNormal : Nat := 48

/-- `next_line`, display_readline.cpp:1097-1113. -/
def Lines.nextLine (s : Lines) (start : Nat) : Lines := { s with rows := s.rows ++ [s.d], d := { start := start }, col := 0 }

/-- `m_vpos = m_count - 1; m_cpos = col;` -/
def Lines.cursor (s : Lines) : Lines := { s with vpos := s.rows.length, cpos := s.col }

/-- `m_vpos = m_count - 1; m_cpos = col;` under a condition. -/
def Lines.cursorIf (s : Lines) (b : Bool) : Lines := if b then s.cursor else s

/-- The end of a row, display_readline.cpp:600-602, 644-652, 688-690, 724-726. -/
def Lines.close (s : Lines) (stop : Nat) (trail : Nat) (newline : Bool) : Lines :=
  { s with d := { s.d with lastcol := s.col, stop := stop, newline := newline, trail := s.d.trail + trail,
                           text := s.d.text ++ List.replicate trail (32, faceNormal) } }

/-- A newline, display_readline.cpp:598-615. -/
def stepLf (su : Setup) (s : Lines) : Lines :=
  let s := s.close s.index 0 true
  let s := s.cursorIf (s.index == su.point)
  { s with index := s.index + 1, pos := s.pos + 1 }.nextLine (s.index + 1)

/-- The second byte of a control character, display_readline.cpp:631: `CTRL_CHAR(c) ? UNCTRL(c) : '?'`; the code points
from 0x40 to 0x5f have no other upper case. -/
def unctrl (c : Nat) : Nat := if c < 32 then c ||| 64 else 63

/-- One byte of a control character, display_readline.cpp:684-713; the row is complete if there is no more room.  Also says whether
`wrapped` is set. -/
def stepByte (su : Setup) (first : Bool) (b face : Nat) (s : Lines) : Lines × Bool :=
  if su.width ≤ s.col then
    let s := (s.close s.index 0 false).nextLine s.index
    let s := s.cursorIf (first && s.index == su.point)
    ({ s with d := { s.d with text := s.d.text ++ [(b, face)] }, col := s.col + 1 }, true)
  else ({ s with d := { s.d with text := s.d.text ++ [(b, face)] }, col := s.col + 1 }, false)

/-- A control character, display_readline.cpp:625-634, 672-719. -/
def stepCtrl (su : Setup) (ch : Ch) (s : Lines) : Lines :=
  let face := su.face s.index
  let s := s.cursorIf (s.index == su.point)
  let (s, w1) := stepByte su true 94 face s
  let (s, w2) := stepByte su false (unctrl ch.c) face s
  let s := { s with index := s.index + 1, pos := s.pos + ch.bytes.length }
  if w1 || w2 then { s with d := { s.d with lead := s.col } } else s

/-- Any other character, display_readline.cpp:635-671. -/
def stepText (su : Setup) (ch : Ch) (s : Lines) : Lines :=
  let w := ch.w.toNat
  let s := if su.width < s.col + w then (s.close s.pos (su.width - s.col) false).nextLine s.pos else s
  let s := s.cursorIf (decide (s.index ≤ su.point) && decide (su.point < s.index + ch.bytes.length))
  { s with
    d := { s.d with text := s.d.text ++ ch.bytes.zipIdx.map fun (b, i) => (b, su.face (s.index + i)) }
    index := s.index + ch.bytes.length
    pos := s.pos + ch.bytes.length
    col := s.col + w }

/-- The body of the loop, display_readline.cpp:596-720. -/
def step (su : Setup) (s : Lines) (ch : Ch) : Lines :=
  if ch.c = 10 && su.lf then stepLf su s
  else if ch.w < 0 then stepCtrl su ch s
  else stepText su ch s

/-- Behind the loop, display_readline.cpp:724-743. -/
def finish (su : Setup) (s : Lines) : Lines :=
  let s := s.close s.index 0 false
  let s :=
    if su.width ≤ s.d.lastcol + s.d.trail then
      let s := s.nextLine s.index
      { s with d := { s.d with stop := s.index } }
    else s
  s.cursorIf (s.index == su.point)

/-- Before the loop, display_readline.cpp:569-577. -/
def begin (botlin col : Nat) : Lines := { rows := List.replicate botlin {}, d := { x := col }, col := col, cpos := col }

/-- `display_lines::parse`, display_readline.cpp:564-744, on the first `len` bytes of the buffer. -/
def parse (env : Env) (su : Setup) (botlin col : Nat) (l : List Nat) : Lines :=
  finish su ((chars env l).foldl (step su) (begin botlin col))

/-- The rows in `m_lines`, `m_count` of them. -/
def Lines.all (s : Lines) : List Row := s.rows ++ [s.d]

/-- `c_horz_scroll_indicator_chars`, display_readline.cpp:90-95. -/
def indicator : Nat := 1

/-- What is needed for scrolling: `m_last_prompt_line_botlin`, `max_rows`, `_rl_screenheight`, `_rl_screenwidth`, `next->count()`,
`next->vpos()`, `next->cpos()`, and `m_x` of each row. -/
structure View where
  botlin : Nat
  maxRows : Nat
  height : Nat
  width : Nat
  count : Nat
  vpos : Nat
  cpos : Nat
  x : Nat → Nat

/-- `input_botlin_offset`, display_readline.cpp:1962-1963. -/
def View.offset (v : View) : Nat := min (min (v.count - 1 - v.botlin) (v.maxRows - 1)) (v.height - 1)

/-- Keeping the cursor in view, display_readline.cpp:1967-1975, from the old `m_top`. -/
def View.keep (v : View) (top : Nat) : Nat :=
  let top := if top < v.botlin then v.botlin else top
  let top := if v.botlin + v.vpos < top then v.botlin + v.vpos else top
  let top := if top + v.offset < v.botlin + v.vpos then v.vpos - v.offset else top
  if v.count < top + v.offset + 1 then v.count - 1 - v.offset else top

/-- `m_top`, display_readline.cpp:1967-1988. -/
def View.top (v : View) (old : Nat) : Nat :=
  let top := v.keep old
  if v.botlin < top && top == v.botlin + v.vpos then
    if v.x top ≤ v.cpos && v.cpos < v.x top + indicator then top - 1 else top
  else if top + v.offset < v.count - 1 && top + v.offset == v.vpos then
    if v.width ≤ v.cpos + indicator && v.cpos < v.width then top + 1 else top
  else top

/-- The inner loop of `translate_xy_to_readline`, display_readline.cpp:3440-3449: characters as long as they fit before the column
`target`; gives the number of bytes passed, and what is left. -/
def consume (target : Nat) : Nat → List Ch → Nat × List Ch
  | _, [] => (0, [])
  | consumed, ch :: r =>
    let w := if ch.w < 0 then 2 else ch.w.toNat
    if target < consumed + w then (0, ch :: r)
    else
      let p := consume target (consumed + w) r
      (ch.bytes.length + p.1, p.2)

/-- The loop of `translate_xy_to_readline`, display_readline.cpp:3434-3452, for `n` more rows; `consumed` at the start of the row. -/
def rowsDown (width x : Nat) : Nat → Nat → List Ch → Nat
  | 0, consumed, l => (consume x consumed l).1
  | n + 1, consumed, l =>
    let p := consume width consumed l
    p.1 + rowsDown width x n 0 p.2

/-- `translate_xy_to_readline`, display_readline.cpp:3401-3460, without horizontal scrolling: `row` is `y - v_begin_line_y`,
`bottom` is `_rl_vis_botlin`, `top` is `get_readline_display_top_offset()`, `prefix` is `rl_get_prompt_prefix_visible()`.
None if it returns false. -/
def translate (env : Env) (width prefix_ bottom top : Nat) (l : List Nat) (x : Nat) (row : Int) (clip : Bool) : Option Nat :=
  if row < 0 ∧ !clip then none
  else if row > bottom ∧ !clip then none
  else
    let v := if row < 0 then 0 else if row > bottom then bottom else row.toNat
    some (min (rowsDown width x (v + top) prefix_ (chars env l)) l.length)

end Clink.Display
