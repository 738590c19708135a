import Verif.Model.StrCompare
/-
Model of the colouring rules of matches: clink/lib/src/match_colors.cpp, and `stat_from_match_type`
of readline/readline/complete.c.

A text is the list of the code points which `str_iter` delivers for valid UTF-8; none of them is 0,
and `iter.next() == 0` is the end of the list.  Sets of flags (`CFLAG_*`) are lists.  The string
buffers are taken to grow as needed.  Not modelled: the messages printed for syntax errors (and
that `_rl_colored_stats` and `_rl_colored_completion_prefix` are cleared then), the colours taken
from LS_COLORS when there are no rules (the outcome is only called `ls` here), and `assert(false)`
for `^`, which is compiled out of release builds.  `wildmatch`, `is_exec`, `lstat`, `stat` and
`past_drive` are parameters.  The name is the one after `rl_filename_stat_hook`.
-/
namespace Clink.MatchColors
open Clink.StrCompare (isSep)

abbrev Text := List Nat

/-! ### Tokens -/

/-- The states of `get_token`, lib/src/match_colors.cpp:251. -/
inductive TS where
  | text | quote | back
  | oct (left num : Nat)
  | hex (left num : Nat)
  | caret
deriving Repr, DecidableEq

/-- What `get_token` returns: 0 at `:` or the end, a delimiter, or -1. -/
inductive Ret where
  | fin | delim (c : Nat) | err
deriving Repr, DecidableEq

/-- `to_utf8(token, &wc, 1)` for one UTF-16 unit, lib/src/match_colors.cpp:372-373: `num` is cut to
16 bits, 0 ends the conversion, and half a surrogate pair becomes U+FFFD. -/
def emit (num : Nat) : Text :=
  let w := num % 65536
  if w = 0 then [] else if 0xD800 ≤ w ∧ w < 0xE000 then [0xFFFD] else [w]

/-- Outcome of one round of the loop of `get_token`. -/
inductive Step where
  | go (st : TS) (tok : Text) (quoted : Bool)
  | stop (r : Ret) (tok : Text) (quoted : Bool)
deriving Repr, DecidableEq

/-- `STATE_TEXT`, lib/src/match_colors.cpp:262-300. -/
def textStep (v : Bool) (d1 d2 : Nat) (tok : Text) (q : Bool) (c : Nat) : Step :=
  if c = 58 then .stop .fin tok q
  else if c = 34 then .go .quote (if v then tok ++ [c] else tok) true
  else if c = 92 then .go .back (if v then tok ++ [c] else tok) q
  else if c = 94 then .go .caret (if v then tok ++ [c] else tok) q
  else if c = d1 ∨ c = d2 then .stop (.delim c) tok q
  else .go .text (tok ++ [c]) q

/-- `concat_numeric`, lib/src/match_colors.cpp:368-373: what is added for the number, or, verbatim, for
the character just read. -/
def numeric (v : Bool) (tok : Text) (num c : Nat) : Text :=
  if v then tok ++ [c] else tok ++ emit num

/-- The number meant by the character after a backslash, lib/src/match_colors.cpp:353-365. -/
def escape (c : Nat) : Nat :=
  if c = 97 then 7 else if c = 98 then 8 else if c = 101 then 27 else if c = 102 then 12
  else if c = 110 then 10 else if c = 114 then 13 else if c = 116 then 9 else if c = 118 then 11
  else if c = 63 then 127 else if c = 95 then 32 else c

/-- The value of a hexadecimal digit, lib/src/match_colors.cpp:395-417. -/
def hexDigit (c : Nat) : Option Nat :=
  if 48 ≤ c ∧ c ≤ 57 then some (c - 48)
  else if 97 ≤ c ∧ c ≤ 102 then some (10 + (c - 97))
  else if 65 ≤ c ∧ c ≤ 70 then some (10 + (c - 65))
  else none

/-- One round of the loop of `get_token` with a real character, lib/src/match_colors.cpp:260-437.
`reset_pointer` followed by `STATE_TEXT` reads the same character again. -/
def step (v : Bool) (d1 d2 : Nat) (st : TS) (tok : Text) (q : Bool) (c : Nat) : Step :=
  match st with
  | .text => textStep v d1 d2 tok q c
  | .quote =>
    if c = 34 then .go .text (if v then tok ++ [c] else tok) q else .go .quote (tok ++ [c]) q
  | .back =>
    if 48 ≤ c ∧ c ≤ 55 then .go (.oct 2 (c - 48)) (if v then tok ++ [c] else tok) q
    else if c = 120 ∨ c = 88 then .go (.hex 2 0) (if v then tok ++ [c] else tok) q
    else if c = 117 ∨ c = 85 then .go (.hex 4 0) (if v then tok ++ [c] else tok) q
    else .go .text (numeric v tok (escape c) c) q
  | .oct left num =>
    if 48 ≤ c ∧ c ≤ 55 then
      if left - 1 = 0 then .go .text (numeric v tok (num * 8 + (c - 48)) c) q
      else .go (.oct (left - 1) (num * 8 + (c - 48))) (if v then tok ++ [c] else tok) q
    else textStep v d1 d2 (if v then tok else tok ++ emit num) q c
  | .hex left num =>
    match hexDigit c with
    | some d =>
      if left - 1 = 0 then .go .text (numeric v tok (num * 16 + d) c) q
      else .go (.hex (left - 1) (num * 16 + d)) (if v then tok ++ [c] else tok) q
    | none => textStep v d1 d2 (if v then tok else tok ++ emit num) q c
  | .caret =>
    if 64 ≤ c ∧ c ≤ 126 then .go .text (numeric v tok (c % 32) c) q
    else if c = 63 then .go .text (numeric v tok 127 c) q
    else .stop .err tok q

/-- What `get_token` gives: its value, the token, whether part of it was quoted, and the rest. -/
structure Tok where
  ret : Ret
  tok : Text
  quoted : Bool
  rest : Text
deriving Repr, DecidableEq

/-- The loop of `get_token`, lib/src/match_colors.cpp:255-438. -/
def scan (v : Bool) (d1 d2 : Nat) (st : TS) (tok : Text) (q : Bool) : Text → Tok
  | [] =>
    match st with
    | .text => ⟨.fin, tok, q, []⟩
    | .oct _ num => ⟨.fin, if v then tok else tok ++ emit num, q, []⟩
    | .hex _ num => ⟨.fin, if v then tok else tok ++ emit num, q, []⟩
    | .quote | .back | .caret => ⟨.err, tok, q, []⟩
  | c :: l =>
    match step v d1 d2 st tok q c with
    | .go st' tok' q' => scan v d1 d2 st' tok' q' l
    | .stop r tok' q' => ⟨r, tok', q', l⟩

/-- `get_token`, lib/src/match_colors.cpp:242-449. -/
def getToken (v : Bool) (d1 d2 : Nat) (l : Text) : Tok := scan v d1 d2 .text [] false l

/-- `str::trim`, core/include/core/str.h:282-313. -/
def trim (l : Text) : Text :=
  ((l.reverse.dropWhile (fun c => c == 32 || c == 9 || c == 13 || c == 10)).reverse).dropWhile
    (fun c => c == 32 || c == 9)

/-- `get_token_and_value`, lib/src/match_colors.cpp:452-472: `none` is a syntax error; otherwise the trimmed
token, the value and the rest. -/
def tokenAndValue (l : Text) : Option (Text × Text × Text) :=
  let t := getToken true 58 61 l
  if t.ret = .delim 61 then
    let w := getToken false 58 0 t.rest
    if w.ret = .err then none else some (trim t.tok, w.tok, w.rest)
  else none

/-! ### Rules -/

/-- `c_indicators`, lib/src/match_colors.cpp:147-163, in the order of the table. -/
inductive Ind where
  | no | fi | di | ro | hi | ln | ex | mi | orp | so
deriving Repr, DecidableEq

/-- `CFLAG_*`, lib/src/match_colors.cpp:137-143. -/
inductive Flag where
  | norm | file | dir | readonly | hidden | symlink | exec
deriving Repr, DecidableEq

/-- The flag of an indicator (none for `mi`, `or` and `so`), lib/src/match_colors.cpp:153-162. -/
def Ind.cflag : Ind → List Flag
  | .no => [.norm] | .fi => [.file] | .di => [.dir] | .ro => [.readonly] | .hi => [.hidden]
  | .ln => [.symlink] | .ex => [.exec] | .mi => [] | .orp => [] | .so => []

/-- The name of an indicator, lib/src/match_colors.cpp:153-162. -/
def Ind.name : Ind → Text
  | .no => [110, 111] | .fi => [102, 105] | .di => [100, 105] | .ro => [114, 111]
  | .hi => [104, 105] | .ln => [108, 110] | .ex => [101, 120] | .mi => [109, 105]
  | .orp => [111, 114] | .so => [115, 111]

def indicators : List Ind := [.no, .fi, .di, .ro, .hi, .ln, .ex, .mi, .orp, .so]

/-- `iequals` (`stricmp`) with a name of ASCII letters, core/include/core/str.h:340-343. -/
def lower (c : Nat) : Nat := if 65 ≤ c ∧ c ≤ 90 then c + 32 else c
def iequals (a b : Text) : Bool := a.map lower == b.map lower

/-- `color_rule` with its `color_pattern`s (text and `m_not`), lib/src/match_colors.cpp:182-195. -/
structure Rule where
  cflags : List Flag
  notCflags : List Flag
  patterns : List (Text × Bool)
  seq : Text
deriving Repr, DecidableEq

/-- The local variables of `parse_rule`, lib/src/match_colors.cpp:475-484. -/
structure Cur where
  cflags : List Flag := []
  notCflags : List Flag := []
  patterns : List (Text × Bool) := []
  numFlags : Nat := 0
  rlind : Option Ind := none
  everAny : Bool := false
  notOp : Bool := false
deriving Repr, DecidableEq

/-- The body of the loop for one token which is not empty, lib/src/match_colors.cpp:495-540. -/
def condStep (s : Cur) (tok : Text) (quoted : Bool) : Cur :=
  if iequals tok [110, 111, 116] then { s with notOp := true }
  else
    match if quoted then none else indicators.find? (fun i => iequals tok i.name) with
    | some i =>
      if s.notOp then
        { s with numFlags := s.numFlags + 1, rlind := some i, notCflags := s.notCflags ++ i.cflag, notOp := false }
      else
        { s with numFlags := s.numFlags + 1, rlind := some i, cflags := s.cflags ++ i.cflag, notOp := false }
    | none =>
      if !quoted && iequals tok [97, 110, 121] then
        { s with cflags := [], notCflags := [], numFlags := 0, everAny := true, notOp := false }
      else
        { s with patterns := s.patterns ++ [(tok, s.notOp)], notOp := false }

/-- The loop of `parse_rule`, lib/src/match_colors.cpp:485-541; the first argument bounds the number of
rounds (each takes at least one character).  `none` is a syntax error. -/
def conds : Nat → Cur → Text → Option Cur
  | 0, s, _ => some s
  | _ + 1, s, [] => some s
  | n + 1, s, c :: l =>
    let t := getToken false 32 0 (c :: l)
    if t.ret = .err then none
    else if t.tok.isEmpty then conds n s t.rest
    else conds n (condStep s t.tok t.quoted) t.rest

/-- The colours: `s_colors` (without `lc`, `rc` and the others which no rule changes),
lib/src/match_colors.cpp:166. -/
abbrev Colors := Ind → Option Text

/-- What `parse_match_colors` builds: `s_colors`, `s_color_rules`, `s_colored_stats` and
`readline_colored_completion_prefix` when given. -/
structure State where
  colors : Colors
  rules : List Rule := []
  stats : Bool := false
  pfx : Option Text := none

/-- The end of `parse_rule`, lib/src/match_colors.cpp:543-575, and what is done with its result at 731-735.
(`|= CFLAG_FILE` for a lone `ro`, 545-546, is only done for rules which set a colour of a type, where
the flags are not used any more.) -/
def addRule (st : State) (s : Cur) (value : Text) : State :=
  let cflags := if s.cflags = [.readonly] ∧ s.patterns = [] ∧ s.numFlags = 1 then s.cflags ++ [.file] else s.cflags
  let cflags := if s.patterns ≠ [] ∧ cflags = [] ∧ s.notCflags = [] ∧ s.everAny = false then [.file] else cflags
  if cflags ≠ [] ∧ s.numFlags = 1 ∧ s.notCflags = [] ∧ s.patterns = [] then
    match s.rlind with
    | some i =>
      { st with colors := fun j => if j = i then some value else st.colors j, stats := true,
                pfx := st.pfx }
    | none => st
  else if cflags ≠ [] ∨ s.notCflags ≠ [] ∨ s.patterns ≠ [] then
    { st with rules := st.rules ++ [⟨cflags, s.notCflags, s.patterns, value⟩], stats := true }
  else st

/-- "readline-colored-completion-prefix". -/
def prefixName : Text :=
  [114, 101, 97, 100, 108, 105, 110, 101, 45, 99, 111, 108, 111, 114, 101, 100, 45, 99, 111, 109, 112, 108,
   101, 116, 105, 111, 110, 45, 112, 114, 101, 102, 105, 120]

/-- One token and its value, lib/src/match_colors.cpp:719-737. -/
def addItem (st : State) (token value : Text) : State :=
  if token = [] then st
  else if token = prefixName then { st with stats := true, pfx := some value }
  else
    match conds (token.length + 1) {} token with
    | none => st
    | some s => addRule st s value

/-- The loop of `parse_match_colors`, lib/src/match_colors.cpp:711-738; the first argument bounds the number
of rounds. -/
def parseLoop : Nat → State → Text → State
  | 0, st, _ => st
  | _ + 1, st, [] => st
  | n + 1, st, c :: l =>
    match tokenAndValue (c :: l) with
    | none => st
    | some (token, value, rest) => parseLoop n (addItem st token value) rest

/-- The colours before the rules are read, lib/src/match_colors.cpp:676-701, with the table of
readline/readline/parse-colors.c:66-96 (`_rl_free_colors` reverts to it).  `readonly` and `hidden` are
`_rl_readonly_color` and `_rl_hidden_color` at that moment; `sock` is the default of `so`. -/
def initColors (sock : Text) (readonly hidden : Option Text) : Colors
  | .di => some [48, 49, 59, 51, 51]
  | .ex => some [48, 49, 59, 51, 50]
  | .ln => some [116, 97, 114, 103, 101, 116]
  | .so => some sock
  | .ro => readonly
  | .hi => hidden
  | _ => none

/-- `parse_match_colors` with rules `s`, lib/src/match_colors.cpp:615-752. -/
def parse (colors : Colors) (s : Text) : State := parseLoop (s.length + 1) ⟨colors, [], false, none⟩ s

/-- `s_completion_prefix`, lib/src/match_colors.cpp:623 and 740-741 (`so` never reaches 563-564, because its
flag is 0). -/
def completionPrefix (setting : Text) (st : State) : Text := st.pfx.getD setting

/-- `is_colored`, lib/src/match_colors.cpp:170-179. -/
def isColored : Option Text → Bool
  | none => false
  | some s => !(s == [] || s == [48] || s == [48, 48])

/-! ### The colour of a match -/

/-- `match_type` without its flags, lib/include/lib/matches.h:16-26. -/
inductive Kind where
  | invalid | none | word | arg | cmd | alias | file | dir
deriving Repr, DecidableEq

/-- `match_type`, lib/include/lib/matches.h:16-37; `other` stands for the flags not used here. -/
structure MType where
  kind : Kind
  link : Bool := false
  orphaned : Bool := false
  hidden : Bool := false
  readonly : Bool := false
  other : Bool := false
deriving Repr, DecidableEq

/-- `is_zero`, lib/include/lib/matches.h:101-104. -/
def MType.isZero (t : MType) : Bool :=
  t.kind == .invalid && !t.link && !t.orphaned && !t.hidden && !t.readonly && !t.other

/-- `is_pathish`, lib/include/lib/matches.h:44-48. -/
def MType.pathish (t : MType) : Bool := t.kind == .file || t.kind == .dir

/-- The bits of `st_mode` used. -/
structure Mode where
  reg : Bool := false
  dir : Bool := false
  lnk : Bool := false
  exec : Bool := false
deriving Repr, DecidableEq

/-- The functions of the system and of other parts. -/
structure Env where
  wild : Text → Text → Bool
  isExec : Text → Bool
  lstat : Text → Option Mode
  stat : Text → Option Mode
  pastDrive : Text → Text
  cmdColor : Option Text
  aliasColor : Option Text

/-- `stat_from_match_type`, readline/readline/complete.c:952-993: the entry and what it links to (`none`
when nothing is there). -/
def statFromType (e : Env) (t : MType) (fn : Text) : Mode × Option Mode :=
  let m : Mode :=
    { dir := t.kind == .dir
      reg := t.kind != .dir && t.kind != .word && t.kind != .arg && t.kind != .alias
      lnk := t.link
      exec := t.kind != .dir && e.isExec fn }
  -- `linkstat.st_mode != 0`
  let target : Mode := { m with lnk := false }
  (if t.link then { m with dir := false, reg := false } else m,
   if t.orphaned || !(target.dir || target.reg || target.exec) then none else some target)

/-- `_strnicmp(s_colors[C_LINK], "target", 6) == 0`. -/
def isTarget : Option Text → Bool
  | none => false
  | some s => iequals (s.take 6) [116, 97, 114, 103, 101, 116]

/-- What a match is: the flags used by the rules and the type whose colour is the default,
lib/src/match_colors.cpp:971-1088 and 1104-1106. -/
def classify (e : Env) (colors : Colors) (t : MType) (name : Text) : List Flag × Ind :=
  let st : Option (Mode × Option Mode) :=
    if t.isZero then (e.lstat name).map (fun m => (m, e.stat name)) else some (statFromType e t name)
  -- mode, and `linkok`: 1, 0 or -1
  let ml : Mode × Option Bool :=
    match st with
    | none => ({}, none)
    | some (m, target) =>
      if m.lnk then
        match target with
        | some m' => (if isTarget (colors .ln) then m' else m, some true)
        | none => (m, some false)
      else (m, some true)
  let mode := ml.1
  if ml.2 = none ∧ colors .mi ≠ none then ([], .mi)
  else if ml.2 = some false ∧ mode.lnk ∧ colors .orp ≠ none then ([], .orp)
  else
    let fk : List Flag × Ind :=
      if ml.2 = none then ([.file], .fi)
      else if mode.reg then (if mode.exec then ([.file, .exec], .ex) else ([.file], .fi))
      else if mode.dir then ([.dir], .di)
      else if mode.lnk ∧ isTarget (colors .ln) = false then ([.symlink], .ln)
      else ([], .orp)
    let fk : List Flag × Ind :=
      if t.isZero then fk
      else if !t.pathish then ([], .no)
      else if fk.1 ≠ [] then
        let fk := if t.readonly then (fk.1 ++ [.readonly], Ind.ro) else fk
        if t.hidden then (fk.1 ++ [.hidden], Ind.hi) else fk
      else fk
    if Flag.dir ∈ fk.1 ∧ fk.2 = .ro then (fk.1, .di) else fk

/-- Trailing separators of a directory are removed, lib/src/match_colors.cpp:1090-1103. -/
def stripSeps (l : Text) : Text := (l.reverse.dropWhile isSep).reverse

/-- `path::get_name`, core/src/path.cpp:386-399. -/
def getName (e : Env) (l : Text) : Text :=
  ((e.pastDrive l).reverse.takeWhile (fun c => !isSep c)).reverse

/-- What the patterns are compared with, lib/src/match_colors.cpp:1125-1140 (the copies `no_trailing_sep`
and `only_name` are made once; the separators are already removed). -/
def patName (e : Env) (flags : List Flag) (name : Text) : Text :=
  getName e (if Flag.dir ∈ flags then stripSeps name else name)

/-- Whether a rule fits, lib/src/match_colors.cpp:1116-1144. -/
def Rule.fits (e : Env) (flags : List Flag) (n : Text) (r : Rule) : Bool :=
  r.cflags.all (fun f => decide (f ∈ flags)) && r.notCflags.all (fun f => !decide (f ∈ flags)) &&
    r.patterns.all (fun p => e.wild p.1 n == !p.2)

/-- What `get_match_color` gives. -/
inductive Out where
  | off                 -- no colouring
  | ls                  -- left to LS_COLORS
  | plain               -- no colour for this match
  | color (seq : Text)  -- the escape code
deriving Repr, DecidableEq

/-- `make_color`, lib/src/match_colors.cpp:782-788, with `lc` = ESC `[` and `rc` = `m`. -/
def makeColor (colors : Colors) (seq : Text) : Text :=
  (if isColored (colors .no) then [27, 91, 109] else []) ++ [27, 91] ++ seq ++ [109]

/-- `get_match_color`, lib/src/match_colors.cpp:938-1166.  `rlStats` is `_rl_colored_stats`. -/
def getMatchColor (e : Env) (rlStats : Bool) (st : State) (t : MType) (name : Text) : Out :=
  if !(rlStats || st.stats) then .off
  else if t.kind = .cmd then .color (makeColor st.colors (e.cmdColor.getD []))
  else if t.kind = .alias then .color (makeColor st.colors (e.aliasColor.getD []))
  else if !st.stats then .ls
  else
    let fk := classify e st.colors t name
    let seq := match st.rules.find? (Rule.fits e fk.1 (patName e fk.1 name)) with
      | some r => some r.seq
      | none => st.colors fk.2
    match seq with
    | some s => .color (makeColor st.colors s)
    | none => .plain

end Clink.MatchColors
