/-
Searching the screen for a line (`find_line`, clink/terminal/src/find_line.cpp, and `console.findprevline`, `console.findnextline`,
clink/lua/src/console_api.cpp:619-783).

Text is a list of UTF-16 units, a line of the screen has as many characters as attributes.  `none` is undefined behaviour.  Reading a line of
the screen does not fail.  `iswspace`, `LCMapStringW` and the regular expressions are parameters; an exception while searching with a
regular expression is not modelled.
-/
namespace Clink.FindLine

structure Line where
  chars : List Nat
  attrs : List Nat
deriving Repr, DecidableEq

/-- `regex t icase` is the search for the expression `t`, which gives position and length, or nothing if `t` is not valid. -/
structure Env where
  space : Nat → Bool
  lower : List Nat → List Nat
  regex : List Nat → Bool → Option (List Nat → Option (Nat × Nat))

structure Query where
  text : Option (List Nat)
  useRegex : Bool
  icase : Bool
  attrs : List Nat
  mask : Nat

variable (env : Env)

/-- Trailing blanks are removed (terminal/src/find_line.cpp:83-85). -/
def trim (cs : List Nat) : List Nat := (cs.reverse.dropWhile env.space).reverse

/-- A string up to its end. -/
def cstr (cs : List Nat) : List Nat := cs.takeWhile (· ≠ 0)

/-- `wcsstr`. -/
def wcsstr : List Nat → List Nat → Option Nat
  | [], f => if f = [] then some 0 else none
  | c :: s, f => if f.isPrefixOf (c :: s) then some 0 else (wcsstr s f).map (· + 1)

/-- What to search for without a regular expression (terminal/src/find_line.cpp:54-62). -/
def needle (q : Query) (t : List Nat) : List Nat := if t ≠ [] ∧ q.icase then env.lower t else t

/-- The text of a line (terminal/src/find_line.cpp:74-121): whether it is found, and `start_found` and `len_found`.  A line in lower case
(lines 87-93) is not used by `wcsstr`.  `start_found` is `none` if a null pointer is subtracted. -/
def textPart (q : Query) (rx : Option (List Nat → Option (Nat × Nat))) (l : Line) (start : Option Nat) (len : Nat) : Bool × Option Nat × Nat :=
  match q.text with
  | none => (true, start, len)
  | some t =>
    match rx with
    | some search =>
      match search (trim env l.chars) with
      | some (p, n) => (true, some p, n)
      | none => (false, start, len)
    | none =>
      match wcsstr (cstr (trim env l.chars)) (needle env q t) with
      | some p => (true, some p, (needle env q t).length)
      | none => (false, none, (needle env q t).length)

/-- The attributes of a line (terminal/src/find_line.cpp:123-149). -/
def attrPart (q : Query) (l : Line) (start : Option Nat) (len : Nat) : Option Bool :=
  if q.attrs = [] then some true
  else
    match start with
    | none => none
    | some p => some (((l.attrs.drop p).take len).any fun a => q.attrs.any fun b => (a % 256) &&& q.mask == b &&& q.mask)

/-- The loop (terminal/src/find_line.cpp:69-165); `n` is the distance without its sign. -/
def go (q : Query) (rx : Option (List Nat → Option (Nat × Nat))) (scr : List Line) (dir : Int) : Nat → Int → Option Nat → Nat → Option Int
  | 0, _, _, _ => some (-1)
  | n + 1, line, start, len =>
    if line < 0 then some 0
    else
      match scr[line.toNat]? with
      | none => some 0
      | some l =>
        let t := textPart env q rx l start len
        match attrPart q l t.2.1 t.2.2 with
        | none => none
        | some fa => if t.1 ∧ fa then some line else go q rx scr dir n (line + dir) t.2.1 t.2.2

/-- `find_line` (terminal/src/find_line.cpp:17-168), called by `win_screen_buffer::find_line` (terminal/src/win_screen_buffer.cpp:1312-1329). -/
def findLine (q : Query) (scr : List Line) (width : Nat) (line : Int) (distance : Int) : Option Int :=
  let dir : Int := if distance > 0 then 1 else -1
  match q.text with
  | some t =>
    if t ≠ [] ∧ q.useRegex then
      match env.regex t q.icase with
      | none => some (-1)
      | some search => go env q (some search) scr dir distance.natAbs line (some 0) width
    else go env q none scr dir distance.natAbs line (some 0) width
  | none => go env q none scr dir distance.natAbs line (some 0) width

/-- A 16-bit number. -/
def short (n : Int) : Int := (n + 32768) % 65536 - 32768

/-- `find_line` for Lua (lua/src/console_api.cpp:619-716), with the line and the direction, the number of lines (`GetConsoleNumLines`) and
what the other arguments say.  There is room for 32 attributes. -/
def findLua (q : Query) (scr : List Line) (width : Nat) (numLines : Int) (arg : Int) (direction : Int) : Option Int :=
  if q.attrs.length > 32 then none
  else
    let start := max (min (short (arg - 1)) (numLines - 1)) 0
    let distance := if direction > 0 then numLines - start + 1 else 0 - start - 1
    (findLine env q scr width start distance).map (· + 1)

end Clink.FindLine
