/-! Model of the command `clink history` (clink/app/src/loader/history.cpp): its options, the bash-like options by way of the
first call of `getopt` (getopt/getopt.c), the verbs, listing, and deleting by number.

Texts are lists of bytes without NUL.  `none` is undefined behaviour.  What `history_db` does is not modelled here (it is in the models
for C30 to C37): an action is what is asked of it, and reading gives the list of lines that `history_db::iter` delivers. -/

namespace Clink.HistCmd

abbrev Text := List Nat

/-! Options -/

/-- `is_flag`, app/src/loader/history.cpp:433-450, for a flag with the least length `min`: the loop, with the number of equal
characters so far. -/
def flagLoop (min : Nat) : Nat → Text → Text → Bool
  | n, [], flag => !(flag ≠ [] && n < min)
  | _, _ :: _, [] => false
  | n, a :: as, f :: fs => if a = f then flagLoop min (n + 1) as fs else false

/-- `is_flag`; without a length it is `uint32(-1)`. -/
def isFlag (arg flag : Text) (min : Nat := 4294967295) : Bool := flagLoop min 0 arg flag

def txt (s : String) : Text := s.toList.map Char.toNat

/-- `bare`, `uniq`, `s_diag`, `s_showtime` if an option sets it, and the format, if an option sets it; app/src/loader/history.cpp:32-34 and
456-457. -/
structure Flags where
  bare : Bool := false
  uniq : Bool := false
  diag : Bool := false
  showtime : Option Bool := none
  format : Option Text := none
deriving Repr, DecidableEq

/-- What is outside: whether the output is a console, and texts without escape codes (`ecma48_processor` with `plaintext`). -/
structure Env where
  console : Bool
  plain : Text → Text

/-- `set_timeformat`, lib/src/history_timeformatter.cpp:63-71.  `ecma48_processor` appends to what there is.  The null pointer
(none) is read by `ecma48_processor`, but the empty text for `operator =`. -/
def setFormat (e : Env) (f : Flags) (fmt : Option Text) : Option Flags :=
  if e.console then some { f with format := some (fmt.getD []) }
  else fmt.map fun t => { f with format := some (f.format.getD [] ++ e.plain t) }

/-- What the loop over the arguments gives: help, or the flags and the other arguments (without the name of the program); `gone`
is when not even the name of the program is left. -/
inductive Parsed
  | help
  | args (f : Flags) (as : List Text)
  | gone (f : Flags)
deriving Repr, DecidableEq

/-- The loop over the arguments, app/src/loader/history.cpp:458-490.  `kept` are the arguments so far that are no flags.  When
`--time-format` is the last argument, two arguments are removed, and the last one of `kept` is lost. -/
def options (e : Env) (f : Flags) (kept : List Text) : List Text → Option Parsed
  | [] => some (.args f kept)
  | a :: as =>
    if isFlag a (txt "--help") 3 || isFlag a (txt "-h") || isFlag a (txt "-?") then some .help
    else if isFlag a (txt "--bare") 3 then options e { f with bare := true } kept as
    else if isFlag a (txt "--diag") 3 then options e { f with diag := true } kept as
    else if isFlag a (txt "--unique") 3 then options e { f with uniq := true } kept as
    else if isFlag a (txt "--show-time") 3 then options e { f with showtime := some true } kept as
    else if isFlag a (txt "--no-show-time") 3 then options e { f with showtime := some false } kept as
    else if isFlag a (txt "--time-format") 3 then
      match as with
      | fmt :: as => (setFormat e { f with showtime := some true } (some fmt)).bind fun f => options e f kept as
      | [] =>
        (setFormat e { f with showtime := some true } none).map fun f =>
          if kept = [] then .gone f else .args f kept.dropLast
    else options e f (kept ++ [a]) as

/-! Actions -/

/-- What a command does: `help code` is the help and the result of the program. -/
inductive Action
  | help (code : Nat)
  | clear
  | remove (n : Int)
  | add (line : Text)
  | expand (line : Text)
  | compact (uniq : Bool) (limit : Int)
  | list (bare : Bool) (tail : Nat)
deriving Repr, DecidableEq

/-- `get_line`, app/src/loader/history.cpp:383-392. -/
def getLine : Text → List Text → Text
  | out, [] => out
  | out, a :: as => getLine ((if out ≠ [] then out ++ [32] else out) ++ a) as

/-- `atoi`: blanks, a sign, and digits; numbers out of range become the nearest one that is in range. -/
def digitsOf : Nat → Text → Nat
  | n, [] => n
  | n, c :: cs => if 48 ≤ c ∧ c ≤ 57 then digitsOf (n * 10 + (c - 48)) cs else n

def isBlank (c : Nat) : Bool := (9 ≤ c && c ≤ 13) || c == 32

def clampInt (n : Int) : Int := max (-2147483648) (min 2147483647 n)

def atoi (t : Text) : Int :=
  match t.dropWhile isBlank with
  | [] => 0
  | c :: cs => if c = 45 then clampInt (-(digitsOf 0 cs)) else if c = 43 then clampInt (digitsOf 0 cs) else clampInt (digitsOf 0 (c :: cs))

/-- What the first call of `getopt` gives for `+?cd:ps`, getopt/getopt.c:146-385. -/
inductive First
  | no                       -- no option: EOF, `optind` is 1
  | dashes                   -- `--`: EOF, `optind` is 2
  | bad                      -- `?` or `:`
  | opt (c : Nat) (joined : Bool)   -- an option; when more characters follow in the same argument, `optind` stays 1
  | optD (arg : Text)
deriving Repr, DecidableEq

/-- The first call of `getopt`.  For `-`, `strchr` finds the end of the string of options, and what is after it is read (none). -/
def firstOpt : List Text → Option First
  | [] => some .no
  | a :: as =>
    if a = txt "--" then some .dashes
    else
      match a with
      | 45 :: [] => none
      | 45 :: 100 :: rest =>
        let arg := match rest with | 61 :: r => r | r => r
        if arg ≠ [] then some (.optD arg)
        else
          match as with
          | [] => some .bad
          | b :: _ => some (.optD b)
      | 45 :: c :: rest => if c = 99 ∨ c = 112 ∨ c = 115 then some (.opt c (rest ≠ [])) else some .bad
      | _ => some .no

/-- `print_history(const char*, bool)`, app/src/loader/history.cpp:223-243: the number of lines, as `uint32`. -/
def tailCount : Nat → Text → Option Nat
  | n, [] => some n
  | n, c :: cs => if c < 48 ∨ c > 57 then none else tailCount ((n * 10 + (c - 48)) % 4294967296) cs

/-- ASCII lower case, as `_stricmp` in the C locale. -/
def lower (c : Nat) : Nat := if 65 ≤ c ∧ c ≤ 90 then c + 32 else c
def verbIs (a : Text) (verb : String) : Bool := a.map lower == (txt verb).map lower

/-- The verbs, app/src/loader/history.cpp:506-568. -/
def verbs (f : Flags) : List Text → Action
  | [] => .list f.bare 4294967295
  | verb :: rest =>
    if verbIs verb "clear" then .clear
    else if verbIs verb "compact" then
      match rest with
      | (c :: cs) :: _ => if c < 48 ∨ c > 57 then .help 1 else .compact f.uniq (atoi (c :: cs))
      | _ => .compact f.uniq (-1)
    else if verbIs verb "delete" then
      match rest with
      | [] => .help 1
      | n :: _ => .remove (atoi n)
    else if verbIs verb "add" then if getLine [] rest = [] then .help 1 else .add (getLine [] rest)
    else if verbIs verb "expand" then if getLine [] rest = [] then .help 1 else .expand (getLine [] rest)
    else if rest ≠ [] then .help 1
    else
      match tailCount 0 verb with
      | none => .help 1
      | some n => .list f.bare n

/-- `history_bash` and what follows, app/src/loader/history.cpp:395-430 and 501-568.  After an option that is joined with other
characters `optind` is 1, so the verbs are tried, too. -/
def dispatch (f : Flags) (args : List Text) : Option (List Action) :=
  (firstOpt args).map fun
    | .no => [verbs f args]
    | .dashes => []
    | .bad => [.help 1]
    | .optD arg => [.remove (atoi arg)]
    | .opt c joined =>
      let line := getLine [] (if joined then args else args.drop 1)
      let act := if c = 99 then Action.clear else if line = [] then .help 1 else if c = 115 then .add line else .expand line
      if joined then [act, verbs f args] else [act]

/-- `history`, app/src/loader/history.cpp:453-569: the actions and the flags. -/
def history (e : Env) (args : List Text) : Option (List Action × Flags) :=
  (options e {} [] args).bind fun
    | .help => some ([.help 0], {})
    | .gone f => some ([.help 1], f)
    | .args f as => (dispatch f as).map fun acts => (acts, f)

/-! Deleting -/

/-- What `remove` does: the result, the message (success and the number) if there is one, and the line that is removed. -/
structure Removed where
  code : Nat
  told : Option (Bool × Int)
  id : Option Nat
deriving Repr, DecidableEq

/-- `history_db::remove(line_id)`: 0 is refused; otherwise `ok` says if it succeeds.  And the end of `remove`,
app/src/loader/history.cpp:295-299. -/
def finish (ok : Nat → Bool) (id : Nat) (index : Int) : Removed :=
  if id = 0 then ⟨1, some (false, index), none⟩
  else if ok id then ⟨0, some (true, index), some id⟩ else ⟨1, some (false, index), none⟩

/-- The loop `for (i = index - 1; i > 0 && iter.next(line); --i)`, app/src/loader/history.cpp:276, over the lines left to read. -/
def advance : Nat → List Nat → List Nat
  | 0, l => l
  | _ + 1, [] => []
  | i + 1, _ :: l => advance i l

/-- `remove`, app/src/loader/history.cpp:261-300, for the numbers (`line_id`) of the lines. -/
def remove (ok : Nat → Bool) (ids : List Nat) (index : Int) : Removed :=
  if index = 0 then ⟨1, none, none⟩
  else if index > 0 then finish ok ((advance (index.toNat - 1) ids).headD 0) index
  else
    let li := (((ids.length : Int) + index) % 18446744073709551616).toNat
    if li ≥ ids.length then ⟨1, none, none⟩ else finish ok (ids.getD li 0) (li + 1)

/-! Listing -/

/-- `translate_history_line`, app/src/loader/history.cpp:119-135: the inner loop takes the characters that need no translation. -/
def fine (c : Nat) : Bool := c ≥ 32 || c == 9

def translate : Text → Text
  | [] => []
  | c :: cs => if fine c then c :: translate cs else 94 :: (c + 65 - 1) % 256 :: translate cs

/-- The decimal digits of `n`, for `k` greater than `n`. -/
def decimal : Nat → Nat → Text
  | 0, _ => []
  | k + 1, n => if n < 10 then [48 + n] else decimal k (n / 10) ++ [48 + n % 10]

/-- `%5u` and two blanks, app/src/loader/history.cpp:182. -/
def number (n : Nat) : Text :=
  let d := decimal (n + 1) n
  List.replicate (5 - d.length) 32 ++ d ++ [32, 32]

/-- How times are shown: `s_showtime`, `timelen`, the text for a timestamp, and the width of a text. -/
structure Times where
  show_ : Bool
  len : Nat
  format : Text → Text
  cells : Text → Nat

/-- `s_showtime` when lines are listed: the setting (2 is to show times) is read after the options, app/src/loader/history.cpp:87-88. -/
def showTime (setting : Nat) (f : Flags) : Bool := setting == 2 || f.showtime.getD false

/-- The time, app/src/loader/history.cpp:183-193. -/
def timeOf (t : Times) (stamp : Text) : Text :=
  let s := if stamp = [] then [] else t.format stamp
  s ++ List.replicate (t.len - t.cells s) 32

/-- One line, app/src/loader/history.cpp:179-207, without the end of the line. -/
def row (t : Times) (bare console : Bool) (index : Nat) (line stamp : Text) : Text :=
  (if bare then [] else number index ++ if t.show_ then timeOf t stamp else []) ++ if console then translate line else line

/-- The number of lines that are skipped, app/src/loader/history.cpp:145-154. -/
def skip (tail count : Nat) : Nat := if tail ≠ 4294967295 then (if count > tail then count - tail else 0) else 0

/-- The loop over the lines, app/src/loader/history.cpp:171-208. -/
def rows (t : Times) (bare console : Bool) : Nat → List (Text × Text) → List Text
  | _, [] => []
  | i, (l, s) :: ls => row t bare console i l s :: rows t bare console (i + 1) ls

/-- `print_history(uint32, bool)`, app/src/loader/history.cpp:138-208. -/
def list (t : Times) (bare console : Bool) (tail : Nat) (lines : List (Text × Text)) : List Text :=
  rows t bare console (skip tail lines.length + 1) (lines.drop (skip tail lines.length))

end Clink.HistCmd
