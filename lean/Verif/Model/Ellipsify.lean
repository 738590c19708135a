import Verif.Model.Ecma48

/-!
Model of fitting text into a number of cells.
Sources: clink/lib/src/ellipsify.cpp, clink/terminal/src/wcwidth_iter.cpp, cell_count in clink/terminal/src/ecma48_iter.cpp.

Text is a list of bytes, read as in `Model.Doskey` and `Model.Ecma48`.  The tables behind `wcwidth`, `is_emoji` and so on
are parameters.  Numbers of cells are integers without a limit, and strings hold what is appended to them.  Asserts are
not modelled.  A pointer into the text is a number of bytes from its start.  A type that is not initialised (see
`Model.Ecma48`) counts as different from `type_chars`.
-/

namespace Clink.Ellipsify

open Utf (more)
open Doskey (peek next next_lt next_le between)
open Ecma48 (Piece State nextCode)

/-- The tables: `wcwidth` with combining marks of width 1 (`combining_mark_width_scope` in terminal/src/wcwidth_iter.cpp:93),
`is_emoji`, `is_possible_unqualified_half_width`, `is_variant_selector` and `g_color_emoji`. -/
structure Env where
  wc : Nat → Int
  emoji : Nat → Bool
  unq : Nat → Bool
  variant : Nat → Bool
  color : Bool

variable (env : Env)

/-- `wcwidth_iter::consume_emoji_sequence`, terminal/src/wcwidth_iter.cpp:174-210: whether the width is set to 2, and
the rest of the text. -/
def emojiSeq (wide : Bool) (l : List Nat) : Bool × List Nat :=
  if h : peek l = 0 then (wide, l)
  else if env.variant (peek l) then emojiSeq true (next l)
  else if peek l = 0x200d then
    let m := next l
    if env.emoji (peek m) || env.unq (peek m) || peek m == 0x2640 || peek m == 0x2642 then emojiSeq true (next m) else (true, m)
  else (wide, l)
termination_by l.length
decreasing_by
  · exact next_lt (Ecma48.more_of_peek h)
  · exact Nat.lt_of_le_of_lt (next_le _) (next_lt (Ecma48.more_of_peek h))

/-- The loop at the end of `wcwidth_iter::next`, terminal/src/wcwidth_iter.cpp:149-168. -/
def zeros (wide : Bool) (l : List Nat) : Bool × List Nat :=
  if h : peek l = 0 then (wide, l)
  else if env.wc (peek l) = 0 then zeros wide (next l)
  else if env.color && env.variant (peek l) then zeros true (next l)
  else (wide, l)
termination_by l.length
decreasing_by all_goals exact next_lt (Ecma48.more_of_peek h)

/-- Regional indicator, terminal/src/wcwidth_iter.cpp:104. -/
def flag (c : Nat) : Bool := 0x1f1e6 ≤ c && c ≤ 0x1f1ff

/-- Unqualified emoji that are wide nevertheless, terminal/src/wcwidth_iter.cpp:127. -/
def always (c : Nat) : Bool := c == 0x3030 || c == 0x303d || c == 0x3297 || c == 0x3299

/-- `max<char32_t>(m_chr_wcwidth, 2)` if the width is set to 2. -/
def widen (w : Int) (r : Bool × List Nat) : Int × List Nat := (if r.1 then max w 2 else w, r.2)

/-- `wcwidth_iter::next`, terminal/src/wcwidth_iter.cpp:74-171, on a text that is not at its end: the width of the
character, and the rest of the text. -/
def oneRun (l : List Nat) : Int × List Nat :=
  let c := peek l
  let m := next l
  let w := env.wc c
  if w < 0 then (w, m)
  else if env.color && w != 0 then
    if flag c && flag (peek m) then (2, next m)
    else if env.unq c || env.emoji c then
      if env.unq c && env.variant (peek m) then widen w (emojiSeq env true (next m))
      else widen w (emojiSeq env (always c) m)
    else if env.variant c then widen w (emojiSeq env true m)
    else widen w (zeros env false m)
  else widen w (zeros env false m)

theorem emojiSeq_le (wide : Bool) (l : List Nat) : (emojiSeq env wide l).2.length ≤ l.length := by
  fun_induction emojiSeq env wide l with
  | case1 => exact Nat.le_refl _
  | case2 wide l h hv ih => exact Nat.le_trans ih (next_le _)
  | case3 wide l h hv hz m hm ih => exact Nat.le_trans ih (Nat.le_trans (next_le _) (next_le _))
  | case4 wide l h hv hz m hm => exact next_le _
  | case5 => exact Nat.le_refl _

theorem zeros_le (wide : Bool) (l : List Nat) : (zeros env wide l).2.length ≤ l.length := by
  fun_induction zeros env wide l with
  | case1 => exact Nat.le_refl _
  | case2 wide l h hw ih => exact Nat.le_trans ih (next_le _)
  | case3 wide l h hw hv ih => exact Nat.le_trans ih (next_le _)
  | case4 => exact Nat.le_refl _

theorem oneRun_lt {l : List Nat} (h : peek l ≠ 0) : (oneRun env l).2.length < l.length := by
  have hn := next_lt (Ecma48.more_of_peek h)
  have h2 := next_le (next l)
  have h3 := fun b => emojiSeq_le env b (next l)
  have h4 := fun b => emojiSeq_le env b (next (next l))
  have h5 := fun b => zeros_le env b (next l)
  unfold oneRun
  simp only
  repeat' split
  · exact hn
  · exact Nat.lt_of_le_of_lt h2 hn
  · exact Nat.lt_of_le_of_lt (h4 _) (Nat.lt_of_le_of_lt h2 hn)
  · exact Nat.lt_of_le_of_lt (h3 _) hn
  · exact Nat.lt_of_le_of_lt (h3 _) hn
  · exact Nat.lt_of_le_of_lt (h5 _) hn
  · exact Nat.lt_of_le_of_lt (h5 _) hn

/-- `while (inner_iter.next())`: the bytes of each character, and `character_wcwidth_signed()`. -/
def runs (l : List Nat) : List (List Nat × Int) :=
  if h : peek l = 0 then [] else (between l (oneRun env l).2, (oneRun env l).1) :: runs (oneRun env l).2
termination_by l.length
decreasing_by exact oneRun_lt env h

/-- The cells of a character, lib/src/ellipsify.cpp:68, 163, 224; `character_wcwidth_onectrl` and
`character_wcwidth_twoctrl`, terminal/include/terminal/wcwidth.h:46-47. -/
def clen (expand : Bool) (w : Int) : Int := if w < 0 then if expand then 2 else 1 else w

/-- The characters of a text with their cells. -/
def cells (expand : Bool) (l : List Nat) : List (List Nat × Int) := (runs env l).map fun r => (r.1, clen expand r.2)

/-- The codes of a text, and what is behind each of them.  None if it does not terminate. -/
def walkAtFrom (s : State) (nested : Nat) (l : List Nat) : Option (List (Piece × List Nat)) :=
  match nextCode s nested l with
  | (none, _, _, _) => some []
  | (some p, s', n', l') => if l'.length < l.length then (walkAtFrom s' n' l').map ((p, l') :: ·) else none
termination_by l.length

/-- `while (code = iter.next())`; reading always ends, see `C16_terminates`. -/
def piecesAt (l : List Nat) : List (Piece × List Nat) := (walkAtFrom {} 0 l).getD []

def pieces (l : List Nat) : List Piece := (piecesAt l).map (·.1)

def isChars (p : Piece) : Bool := p.typ == some .chars

/-- The sum in `clink_wcswidth` and `clink_wcswidth_expandctrl`, terminal/src/wcwidth_iter.cpp:10-31. -/
def wcswidth (expand : Bool) (l : List Nat) : Int := ((cells env expand l).map (·.2)).sum

/-- `cell_count`, terminal/src/ecma48_iter.cpp:17-32, and `total_cells` in `ellipsify_ex`, lib/src/ellipsify.cpp:122-135. -/
def cellCount (expand : Bool) (l : List Nat) : Int := ((pieces l).map fun p => if isChars p then wcswidth env expand p.text else 0).sum

/-- `visible_len`, `truncate_visible` with `truncate_bytes`, and `out`. -/
structure Acc where
  vis : Int := 0
  trunc : Option (Int × Nat) := none
  out : List Nat := []

/-- The inner loop of `ellipsify`, lib/src/ellipsify.cpp:66-91, and of `ellipsify_ex`, 161-192: what it goes on with, or
where the text is cut. -/
def rightRuns (limit : Int) (e : Int) : List (List Nat × Int) → Acc → Acc ⊕ (Int × List Nat)
  | [], a => .inl a
  | (t, w) :: rs, a =>
    let trunc := if a.trunc.isNone && a.vis + w > limit - e then some (a.vis, a.out.length) else a.trunc
    if a.vis + w > limit then
      match trunc with
      | some (v, n) => .inr (v, a.out.take n)
      | none => .inr (-1, a.out)
    else rightRuns limit e rs { vis := a.vis + w, trunc := trunc, out := a.out ++ t }

/-- The outer loop, lib/src/ellipsify.cpp:58-97, 153-198. -/
def rightPieces (expand : Bool) (limit : Int) (e : Int) : List Piece → Acc → Acc ⊕ (Int × List Nat)
  | [], a => .inl a
  | p :: ps, a =>
    if a.vis ≤ limit then
      if isChars p then
        match rightRuns limit e (cells env expand p.text) a with
        | .inl a => rightPieces expand limit e ps a
        | .inr r => .inr r
      else rightPieces expand limit e ps { a with out := a.out ++ p.text }
    else .inl a

/-- `ellipsis`, lib/src/ellipsify.cpp:25; `USE_ASCII_ELLIPSIS` is not defined. -/
def ellipsis : List Nat := [0xe2, 0x80, 0xa6]

/-- `ellipsify`, lib/src/ellipsify.cpp:48-100: the text and the returned width. -/
def ellipsify (l : List Nat) (limit : Int) (expand : Bool) : List Nat × Int :=
  match rightPieces env expand limit 1 (pieces l) {} with
  | .inl a => (a.out, a.vis)
  | .inr (v, out) => (out ++ ellipsis, v + cellCount env false ellipsis)

/-- `struct run`, lib/src/ellipsify.cpp:203-209. -/
structure Run where
  index : Nat
  length : Nat
  cells : Int
  chars : Bool

/-- The runs of one piece of characters, lib/src/ellipsify.cpp:218-227; `i` is where it starts. -/
def charRuns : Nat → List (List Nat × Int) → List Run
  | _, [] => []
  | i, (t, w) :: rs => ⟨i, t.length, w, true⟩ :: charRuns (i + t.length) rs

/-- Building the runs, lib/src/ellipsify.cpp:212-239; `n` is the length of the text and `prev` is `prev_end`. -/
def leftRuns (expand : Bool) (n : Nat) : Nat → List (Piece × List Nat) → List Run
  | _, [] => []
  | prev, (p, rest) :: ps =>
    (if isChars p then charRuns (n - rest.length - p.text.length) (cells env expand p.text) else [⟨prev, p.text.length, 0, false⟩]) ++
      leftRuns expand n (n - rest.length) ps

/-- The loop from right to left, lib/src/ellipsify.cpp:251-302: `truncate_visible`, the runs before `truncate_run`, and
the runs from there.  The runs up to `r` are in reverse order.  None if it goes to `no_truncate`. -/
def leftLoop (limit : Int) (e : Int) : List Run → List Run → Int → Option (Int × List Run × List Run) → Option (Int × List Run × List Run)
  | [], _, _, _ => none
  | r :: rs, done, vis, trunc =>
    if vis ≤ limit then
      if r.chars then
        let trunc := if trunc.isNone && vis + r.cells > limit - e then some (vis, (r :: rs).reverse, done) else trunc
        if vis + r.cells > limit then trunc else leftLoop limit e rs (r :: done) (vis + r.cells) trunc
      else leftLoop limit e rs (r :: done) vis trunc
    else none

/-- `in + walk->index` for `walk->length` bytes. -/
def Run.text (l : List Nat) (r : Run) : List Nat := (l.drop r.index).take r.length

/-- The text from the first run that is kept, lib/src/ellipsify.cpp:292-294. -/
def keptFrom (l : List Nat) : List Run → List Nat
  | [] => []
  | r :: _ => l.drop r.index

/-- `while (inner_iter.next())` on characters. -/
def points (l : List Nat) : List Nat :=
  if h : peek l = 0 then [] else peek l :: points (next l)
termination_by l.length
decreasing_by exact next_lt (Ecma48.more_of_peek h)

/-- How the loop over the drive goes on: with `drive_chars` and `drive_end`, or to `break_break_no` or
`break_break_yes`. -/
inductive Drive | go (n at_ : Nat) | no | yes (at_ : Nat)

/-- The inner loop, lib/src/ellipsify.cpp:334-353. -/
def driveChars : List Nat → Nat → Nat → Drive
  | [], n, at_ => .go n at_
  | c :: cs, n, at_ =>
    if n = 0 then if 97 ≤ c ∧ c ≤ 122 ∨ 65 ≤ c ∧ c ≤ 90 then driveChars cs 1 (at_ + 1) else .no
    else if n = 1 then if c = 58 then driveChars cs 2 (at_ + 1) else .no
    else .yes at_

/-- The loop that looks for a drive, lib/src/ellipsify.cpp:319-359: `drive_end`; `n` is the length of the text. -/
def driveEnd (n : Nat) : List (Piece × List Nat) → Nat → Nat → Option Nat
  | [], _, _ => none
  | (p, rest) :: ps, k, at_ =>
    if isChars p then
      match driveChars (points p.text) k at_ with
      | .go k at_ => driveEnd n ps k at_
      | .no => none
      | .yes at_ => some at_
    else driveEnd n ps k (n - rest.length)

inductive Mode | right | left | path
  deriving DecidableEq, Repr

/-- `out`, the returned width, and `*truncated`. -/
structure Res where
  out : List Nat
  width : Int
  truncated : Bool
  deriving DecidableEq, Repr

/-- `e_cells`, lib/src/ellipsify.cpp:144. -/
def ellCells (el : Option (List Nat)) : Int :=
  match el with
  | some e => cellCount env false e
  | none => 1

/-- `ellipsify_ex`, lib/src/ellipsify.cpp:111-385.  The first number limits the depth of the recursion; none if it is
reached (see `ellipsifyEx`). -/
def ex : Nat → List Nat → Int → Mode → Option (List Nat) → Bool → Option Res
  | 0, _, _, _, _, _ => none
  | k + 1, l, limit, mode, el, expand =>
    let total := cellCount env expand l
    if total ≤ limit then some ⟨l, total, false⟩
    else
      let ecells := ellCells env el
      let e := el.getD ellipsis
      match mode with
      | .right =>
        match rightPieces env expand limit ecells (pieces l) {} with
        | .inl a => some ⟨a.out, a.vis, false⟩
        | .inr (v, out) =>
          if limit - v > 0 then (ex k e (limit - v) .right (some []) expand).map fun r => ⟨out ++ r.out, v + r.width, true⟩
          else some ⟨out, v, true⟩
      | .left =>
        match leftLoop limit ecells (leftRuns env expand l.length 0 (piecesAt l)).reverse [] 0 none with
        | none => some ⟨l, total, false⟩
        | some (v, before, after) =>
          let codes := ((before.filter fun r => !r.chars).map (·.text l)).flatten
          let kept := keptFrom l after
          if limit - v > 0 then (ex k e (limit - v) .right (some []) expand).map fun r => ⟨codes ++ r.out ++ kept, v + r.width, true⟩
          else some ⟨codes ++ kept, v, true⟩
      | .path =>
        let at_ := (driveEnd l.length (piecesAt l) 0 0).getD 0
        let drive := l.take at_
        let dcells := cellCount env false drive
        let fall := ex k l limit .right el false
        if limit ≥ dcells then
          (ex k (l.drop at_) (limit - dcells) .left el false).bind fun r =>
            if r.width ≥ ecells ∧ limit ≥ dcells + r.width then some ⟨drive ++ r.out, dcells + r.width, r.truncated⟩ else fall
        else fall

/-- `ellipsify_ex` with the depth that it needs at most. -/
def ellipsifyEx (l : List Nat) (limit : Int) (mode : Mode) (el : Option (List Nat)) (expand : Bool) : Option Res :=
  ex env 4 l limit mode el expand

end Clink.Ellipsify
