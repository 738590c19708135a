import Verif.Model.Doskey

/-!
Model of the splitting of the input line into commands and words.
Sources: clink/lib/src/cmd_tokenisers.cpp, clink/lib/src/word_collector.cpp.

Text is a list of bytes.  An iterator is the list of bytes from its pointer to its end, as in `Model.Doskey`.
The quote pair is `"` (lib/include/lib/line_editor.h:41, 48; host_cmd.cpp:435).  `lookup` is the table of
aliases and `enh` the setting `doskey.enhanced`.  Asserts are not modelled.
-/

namespace Clink.Tokens

open Utf (more next8)
open Doskey (Lookup peek next next_lt next_le isAliasWord skipParens trimParens)

/-- `input_type`, lib/src/cmd_tokenisers.cpp:42. -/
inductive Inp | txt | spc | dig | lt | gt | amp | pipe
  deriving DecidableEq, Repr

/-- `get_input_type`, lib/src/cmd_tokenisers.cpp:43-65. -/
def inputType (c : Nat) : Inp :=
  if c = 32 ∨ c = 9 ∨ c = 0 then .spc
  else if 48 ≤ c ∧ c ≤ 57 then .dig
  else if c = 60 then .lt
  else if c = 62 then .gt
  else if c = 38 then .amp
  else if c = 124 then .pipe
  else .txt

/-- `tokeniser_state`, lib/src/cmd_tokenisers.cpp:69. -/
inductive St | txt | spc | dig | in_ | out | in2 | out2 | din | dout | din2 | dout2 | reAm | amDi | break_ | arg | valid | bad
  deriving DecidableEq, Repr

/-- `c_transition`, lib/src/cmd_tokenisers.cpp:70-86.  The table has no rows for `sBREAK` and later; the loops never
look these up, the value given here is arbitrary. -/
def trans : St → Inp → St
  | .txt, .txt => .txt | .txt, .spc => .spc | .txt, .dig => .txt | .txt, .lt => .in_ | .txt, .gt => .out | .txt, .amp => .break_ | .txt, .pipe => .break_
  | .spc, .txt => .txt | .spc, .spc => .spc | .spc, .dig => .dig | .spc, .lt => .in_ | .spc, .gt => .out | .spc, .amp => .break_ | .spc, .pipe => .break_
  | .dig, .txt => .txt | .dig, .spc => .spc | .dig, .dig => .txt | .dig, .lt => .din | .dig, .gt => .dout | .dig, .amp => .break_ | .dig, .pipe => .break_
  | .in_, .txt => .arg | .in_, .spc => .arg | .in_, .dig => .arg | .in_, .lt => .in2 | .in_, .gt => .bad | .in_, .amp => .bad | .in_, .pipe => .bad
  | .out, .txt => .arg | .out, .spc => .arg | .out, .dig => .arg | .out, .lt => .bad | .out, .gt => .out2 | .out, .amp => .bad | .out, .pipe => .bad
  | .in2, .txt => .arg | .in2, .spc => .arg | .in2, .dig => .arg | .in2, .lt => .bad | .in2, .gt => .bad | .in2, .amp => .bad | .in2, .pipe => .bad
  | .out2, .txt => .arg | .out2, .spc => .arg | .out2, .dig => .arg | .out2, .lt => .bad | .out2, .gt => .bad | .out2, .amp => .bad | .out2, .pipe => .bad
  | .din, .txt => .arg | .din, .spc => .arg | .din, .dig => .arg | .din, .lt => .din2 | .din, .gt => .bad | .din, .amp => .reAm | .din, .pipe => .bad
  | .dout, .txt => .arg | .dout, .spc => .arg | .dout, .dig => .arg | .dout, .lt => .bad | .dout, .gt => .dout2 | .dout, .amp => .reAm | .dout, .pipe => .bad
  | .din2, .txt => .arg | .din2, .spc => .arg | .din2, .dig => .arg | .din2, .lt => .bad | .din2, .gt => .bad | .din2, .amp => .reAm | .din2, .pipe => .bad
  | .dout2, .txt => .arg | .dout2, .spc => .arg | .dout2, .dig => .arg | .dout2, .lt => .bad | .dout2, .gt => .bad | .dout2, .amp => .reAm | .dout2, .pipe => .bad
  | .reAm, .txt => .bad | .reAm, .spc => .bad | .reAm, .dig => .amDi | .reAm, .lt => .bad | .reAm, .gt => .bad | .reAm, .amp => .bad | .reAm, .pipe => .bad
  | .amDi, _ => .valid
  | .break_, _ => .bad | .arg, _ => .bad | .valid, _ => .bad | .bad, _ => .bad

/-- `new_state <= sDig`. -/
def St.low : St → Bool
  | .txt | .spc | .dig => true
  | _ => false

/-- `new_state == sARG || new_state == sVALID || new_state == sBAD`. -/
def St.ends : St → Bool
  | .arg | .valid | .bad => true
  | _ => false

/-- `stricmp` and the like, on one byte. -/
def lower (c : Nat) : Nat := if 65 ≤ c ∧ c ≤ 90 then c + 32 else c

def str (s : String) : List Nat := s.toList.map Char.toNat

/-- `c_cmd_commands_basicwordbreaks` and `c_cmd_commands_shellwordbreaks`, lib/src/cmd_tokenisers.cpp:25-40. -/
def internals : List (List Nat) :=
  ["assoc", "color", "ftype", "if", "set", "ver", "verify",
   "break", "call", "cd", "chdir", "cls", "copy", "date", "del", "dir",
   "dpath", "echo", "endlocal", "erase", "exit", "for", "goto", "md",
   "mkdir", "mklink", "move", "path", "pause", "popd", "prompt", "pushd",
   "rd", "rem", "ren", "rename", "rmdir", "setlocal", "shift", "start",
   "time", "title", "type", "vol"].map str

/-- The removal of carets in `is_cmd_command`, lib/src/cmd_tokenisers.cpp:165-175. -/
def unescape : List Nat → List Nat
  | [] => []
  | [c] => if c = 94 then [] else [c]
  | c :: d :: r => if c = 94 then d :: unescape r else c :: unescape (d :: r)

/-- `is_cmd_command`, lib/src/cmd_tokenisers.cpp:139-184: none for `flag_none`, otherwise whether `flag_rem` is set.
`flag_specialwordbreaks` is never used. -/
def isCmdCommand (word : List Nat) : Option Bool :=
  if word.map lower ∈ internals then some (word.map lower == str "rem")
  else if 94 ∉ word then none
  else if (unescape word).map lower ∈ internals then some ((unescape word).map lower == str "rem")
  else none

/-- `cmd_state`, lib/include/lib/cmd_tokenisers.h:32-49.  `m_match_flag` is never read. -/
structure CmdState where
  word : List Nat := []
  first : Bool := false
  failed : Bool := true
  isMatch : Bool := false
  onlyRem : Bool := false
  deriving DecidableEq, Repr

/-- `cmd_state::clear`, lib/src/cmd_tokenisers.cpp:187-194. -/
def CmdState.clear (s : CmdState) (first : Bool) : CmdState :=
  { s with word := [], first := first, failed := false, isMatch := false }

/-- `cmd_state::next_word`, lib/src/cmd_tokenisers.cpp:197-203. -/
def CmdState.nextWord (s : CmdState) : CmdState :=
  if s.first then { s with first := false } else { s with failed := true }

/-- `c_command_delimiters`, lib/src/cmd_tokenisers.cpp:136, as `strchr` sees it. -/
def isCommandDelimiter (c : Nat) : Bool := c = 0 ∨ c ∈ str "&(=+[]\\|;:,.<>/ \t"

/-- `cmd_state::test`, lib/src/cmd_tokenisers.cpp:206-256. -/
def CmdState.test (s : CmdState) (c : Nat) (new : St) : Bool × CmdState :=
  if s.failed then (false, s)
  else if s.word = [] ∧ (new.low = false ∨ c = 32 ∨ c = 9 ∨ c = 40 ∨ c = 64) then (false, s)
  else if s.word.length > 8 ∨ c > 127 then (false, { s with failed := true })
  else if s.isMatch ∧ isCommandDelimiter c then (true, { s with failed := true })
  else
    let word := if c = 0 then s.word else s.word ++ [c]
    let s := { s with isMatch := false, word := word }
    match isCmdCommand word with
    | none => (false, s)
    | some rem => if s.onlyRem ∧ rem = false then (false, { s with failed := true }) else (false, { s with isMatch := true })

/-- `c_command_delims`, `c_name_delims`, `c_word_delims`, lib/src/cmd_tokenisers.cpp:262-264. -/
def commandDelims : List Nat := str "@ \t=;,(/"
def nameDelims : List Nat := str "@ \t=;,("
def wordDelims : List Nat := str " \t\n'`=+;,()[]{}"

/-- `str_chr(delims, c)`, core/include/core/str.h:30: true for 0, too. -/
def isDelim (ds : List Nat) (c : Nat) : Bool := c = 0 ∨ c ∈ ds

/-- `get_delims`, lib/src/cmd_tokenisers.cpp:267-274. -/
def getDelims (commandWord redirArg inWord : Bool) : List Nat :=
  if redirArg ∨ commandWord ∧ inWord = false then nameDelims
  else if commandWord then commandDelims
  else wordDelims

/-! ## Commands -/

/-- The variables of the loop in `cmd_command_tokeniser::next`. -/
structure CmdLoop where
  inQuote : Bool := false
  isArg : Bool := false
  anyText : Bool := false
  state : St := .spc
  cmd : CmdState

/-- The character is the first text of the command, lib/src/cmd_tokenisers.cpp:431-435. -/
def CmdLoop.textChar (s : CmdLoop) (c : Nat) : Bool :=
  let new := trans s.state (inputType c)
  (new = .txt ∨ new = .dig) ∧ s.anyText = false ∧ isDelim nameDelims c = false ∧ c ≠ 38 ∧ c ≠ 124

/-- `any_text` after the character. -/
def CmdLoop.newAny (s : CmdLoop) (c : Nat) : Bool := s.anyText || s.textChar c

/-- `new_state`, lib/src/cmd_tokenisers.cpp:429 and 444-445. -/
def CmdLoop.rawState (s : CmdLoop) (c : Nat) : St :=
  if trans s.state (inputType c) = .break_ ∧ s.newAny c = false then .txt else trans s.state (inputType c)

/-- `new_state` and `is_arg`, lib/src/cmd_tokenisers.cpp:447-454. -/
def CmdLoop.newState (s : CmdLoop) (c : Nat) : St := if (s.rawState c).ends then trans .spc (inputType c) else s.rawState c
def CmdLoop.newArg (s : CmdLoop) (c : Nat) : Bool :=
  if (s.rawState c).ends then true else if s.rawState c ≠ .txt then false else s.isArg

/-- The test for `rem`, lib/src/cmd_tokenisers.cpp:456. -/
def CmdLoop.newCmd (s : CmdLoop) (c : Nat) : Bool × CmdState :=
  if (s.newState c).low ∧ s.newArg c = false then s.cmd.test c (s.newState c) else (false, s.cmd)

/-- The iterator after the character, lib/src/cmd_tokenisers.cpp:423-426 and 436-441.  `l` is the iterator after
reading `c`, `text` the whole text. -/
def afterChar (text : List Nat) (s : CmdLoop) (c : Nat) (l : List Nat) : List Nat :=
  let l := if c = 94 then next l else l
  let pos := text.length - l.length
  if s.textChar c ∧ inputType c = .dig ∧ trans s.state (inputType c) = .txt ∧ 2 ≤ pos ∧ text.getD (pos - 2) 0 = 64 ∧ peek l = 62
  then next l else l

/-- One character outside quotes, lib/src/cmd_tokenisers.cpp:423-477: the new variables, or where the command ends.
When the command is `rem` the rest of the line is consumed. -/
def plainChar (text : List Nat) (s : CmdLoop) (c : Nat) (l : List Nat) : List Nat ⊕ CmdLoop :=
  if (s.newCmd c).1 then .inl []
  else if s.newState c = .break_ then .inl (text.drop (text.length - (afterChar text s c l).length - 1))
  else .inr { inQuote := c == 34, isArg := s.newArg c, anyText := s.newAny c, state := s.newState c, cmd := (s.newCmd c).2 }

theorem afterChar_le (text : List Nat) (s : CmdLoop) (c : Nat) (l : List Nat) : (afterChar text s c l).length ≤ l.length := by
  have h1 : (if c = 94 then next l else l).length ≤ l.length := by
    split
    · exact next_le _
    · exact Nat.le_refl _
  unfold afterChar
  generalize (if c = 94 then next l else l) = m at h1
  simp only
  split
  · exact Nat.le_trans (next_le _) h1
  · exact h1

/-- The loop in `cmd_command_tokeniser::next`, lib/src/cmd_tokenisers.cpp:408-479: the iterator at its end. -/
def cmdLoop (text : List Nat) (s : CmdLoop) (l : List Nat) : List Nat :=
  if h : more l = true then
    if s.inQuote then cmdLoop text { s with inQuote := peek l != 34 } (next l)
    else match plainChar text s (peek l) (next l) with
      | .inl e => e
      | .inr s' => cmdLoop text s' (afterChar text s (peek l) (next l))
  else l
termination_by l.length
decreasing_by
  · exact next_lt h
  · exact Nat.lt_of_le_of_lt (afterChar_le _ _ _ _) (next_lt h)

/-- `for (n = alias_len; n--;) m_iter.next()`, lib/src/cmd_tokenisers.cpp:403-404. -/
def advance : Nat → List Nat → List Nat
  | 0, l => l
  | n + 1, l => advance n (next l)

/-- Skipping the separator, lib/src/cmd_tokenisers.cpp:369-380. -/
def skipSeparator (l : List Nat) : List Nat :=
  if peek l = 38 ∨ peek l = 124 then
    let l1 := next l
    if peek l1 = peek l then next l1 else l1
  else l

/-- Where a command starts, lib/src/cmd_tokenisers.cpp:367-386: the iterator and the number of parentheses. -/
def commandStart (lookup : Lookup) (enh : Bool) (text l : List Nat) : List Nat × Nat :=
  let first : Bool := l.length = text.length
  let l := if first then l else skipSeparator l
  let p := skipParens lookup (first || enh) l
  if first = false ∧ p.2 = 0 ∧ more p.1 ∧ peek p.1 = 32 then (next p.1, p.2) else p

/-- The scan of one command, lib/src/cmd_tokenisers.cpp:390-479: the iterator at the end of the command. -/
def scanCommand (lookup : Lookup) (text l : List Nat) : List Nat :=
  let n := isAliasWord lookup l
  let cmd := (CmdState.mk [] false true false true).clear true
  if n ≠ 0 then cmdLoop text { anyText := true, cmd := (cmd.test 255 .txt).2 } (advance n l)
  else cmdLoop text { cmd := cmd } l

/-- `cmd_command_tokeniser::next`, lib/src/cmd_tokenisers.cpp:356-487, when there is more text: offset, length and
iterator.  The delimiter it returns is only tested for being valid, and it is one of `&`, `|` and 0 here. -/
def nextCommand (lookup : Lookup) (enh : Bool) (text l : List Nat) : Nat × Nat × List Nat :=
  let p := commandStart lookup enh text l
  let offset := text.length - p.1.length
  let e := scanCommand lookup text p.1
  (offset, trimParens text offset (text.length - e.length) p.2 - offset, e)

/-- The loop in `word_collector::find_command_bounds`, lib/src/word_collector.cpp:122-133, without the test for the
cursor: the ranges of all commands.  None if it does not terminate. -/
def ranges (lookup : Lookup) (enh : Bool) (text l : List Nat) : Option (List (Nat × Nat)) :=
  if more l then
    let r := nextCommand lookup enh text l
    if r.2.2.length < l.length then (ranges lookup enh text r.2.2).map ((r.1, r.2.1) :: ·) else none
  else some []
termination_by l.length

/-- The ranges up to the first that contains the cursor, lib/src/word_collector.cpp:129-132. -/
def upTo (cursor : Nat) : List (Nat × Nat) → List (Nat × Nat)
  | [] => []
  | r :: rs => if r.1 ≤ cursor ∧ cursor ≤ r.1 + r.2 then [r] else r :: upTo cursor rs

/-- `word_collector::find_command_bounds`, lib/src/word_collector.cpp:109-145, with a command tokeniser.
`command_start` and `command_length` are 0 when there is no command at all. -/
def bounds (lookup : Lookup) (enh : Bool) (buffer : List Nat) (cursor : Nat) (stop : Bool) : Option (List (Nat × Nat)) :=
  let text := if stop then buffer.take cursor else buffer
  (ranges lookup enh text text).map fun rs =>
    let rs := if stop then upTo cursor rs else rs
    if rs = [] then [(0, 0)] else rs

/-! ## Words -/

/-- Skipping separators in `start_new_word`, lib/src/cmd_tokenisers.cpp:526-545. -/
def skipSeps (delims : List Nat) (l : List Nat) : List Nat :=
  if h : more l = true then
    if peek l = 94 then
      if peek (next l) = 32 then skipSeps delims (next (next l)) else l
    else if isDelim delims (peek l) then skipSeps delims (next l) else l
  else l
termination_by l.length
decreasing_by
  · exact Nat.lt_of_le_of_lt (next_le _) (next_lt h)
  · exact next_lt h

/-- The members of `cmd_word_tokeniser`, lib/include/lib/cmd_tokenisers.h:62-88, that change: the iterator and flags. -/
structure WordTok where
  iter : List Nat
  nextRedir : Bool := false
  cmd : CmdState
  commandWord : Bool

/-- The variables of `cmd_word_tokeniser::next`, lib/src/cmd_tokenisers.cpp:506-557.  Pointers are offsets from
`m_start`.  -/
structure WordLoop where
  iter : List Nat
  nextRedir : Bool
  cmd : CmdState
  redirArg : Bool
  startWord : Nat
  endWord : Nat
  inQuote : Bool := false
  state : St := .spc
  firstChar : Bool := true
  firstSlash : Bool := false
  /-- the last `c` -/
  c : Nat := 0

/-- `start_new_word`, lib/src/cmd_tokenisers.cpp:519-549.  `n` is the length of the text. -/
def WordLoop.startNew (n : Nat) (cw : Bool) (s : WordLoop) : WordLoop :=
  let l := skipSeps (getDelims cw s.nextRedir false) s.iter
  { s with cmd := s.cmd.nextWord, redirArg := s.nextRedir, nextRedir := false, iter := l, startWord := n - l.length, endWord := n - l.length }

/-- `new_state`, where a break is text, lib/src/cmd_tokenisers.cpp:584-586, 603-605. -/
def wordState (st : St) (c : Nat) : St := if trans st (inputType c) = .break_ then .txt else trans st (inputType c)

/-- Up to the test whether there is more text, lib/src/cmd_tokenisers.cpp:578-615: whether to stop, and the variables,
with `state` still the state before the character.  `new` is computed again by the caller. -/
def WordLoop.look (n : Nat) (cw : Bool) (s : WordLoop) : Bool × WordLoop :=
  let c := peek s.iter
  let s := { s with c := c, firstSlash := if s.firstChar then c == 47 else s.firstSlash }
  let new := wordState s.state c
  if new.ends then
    let s := { s with nextRedir := new = .arg }
    if s.endWord > s.startWord then (true, s)
    else
      let s := { s with state := .spc }.startNew n cw
      let s := { s with c := peek s.iter }
      (false, if (wordState .spc s.c) = .txt ∨ (wordState .spc s.c) = .spc then { s with endWord := n - s.iter.length } else s)
  else (false, if (new = .txt ∨ new = .spc) ∧ s.state.low then { s with endWord := n - s.iter.length } else s)

/-- `c` after the test for a space escaped by a caret, lib/src/cmd_tokenisers.cpp:617-629.  `after` is the byte
after the end of the iterator, which the code reads when the caret is the last character. -/
def WordLoop.caret (after : Nat) (s : WordLoop) : Nat :=
  if s.c = 94 ∧ s.redirArg = false then
    let c2 := (next s.iter).headD after
    if inputType c2 = .spc then c2 else s.c
  else s.c

/-- `new_state` after that test. -/
def WordLoop.eatState (after : Nat) (s : WordLoop) : St :=
  if s.caret after = s.c then wordState s.state s.c else trans s.state .spc

/-- The test for an internal command, lib/src/cmd_tokenisers.cpp:632. -/
def WordLoop.eatCmd (after : Nat) (s : WordLoop) : Bool × CmdState :=
  if s.eatState after = .txt then s.cmd.test (s.caret after) .txt else (false, s.cmd)

/-- The word ends before the character: the end of the name of an internal command, or a slash in the name of a
command, lib/src/cmd_tokenisers.cpp:631-637. -/
def WordLoop.endsBefore (after : Nat) (cw : Bool) (s : WordLoop) : Bool :=
  (s.eatCmd after).1 || (s.caret after = 47 ∧ s.firstSlash = false ∧ s.firstChar = false ∧ cw ∧ s.redirArg = false)

/-- The iterator after the character, lib/src/cmd_tokenisers.cpp:639-641. -/
def WordLoop.eatIter (after : Nat) (s : WordLoop) : List Nat :=
  if s.caret after = 94 then next (next s.iter) else next s.iter

/-- The character is a separator after the word, lib/src/cmd_tokenisers.cpp:643-647. -/
def WordLoop.endsAt (after : Nat) (cw : Bool) (s : WordLoop) : Bool :=
  s.eatState after = .spc ∨
  s.eatState after = .txt ∧ isDelim (getDelims cw s.redirArg (s.firstSlash = false ∧ s.firstChar = false)) (s.caret after)

/-- The rest of an iteration outside quotes, lib/src/cmd_tokenisers.cpp:617-659: whether to stop, and the variables. -/
def WordLoop.eat (n after : Nat) (cw : Bool) (s : WordLoop) : Bool × WordLoop :=
  if s.endsBefore after cw then (true, { s with c := s.caret after, cmd := (s.eatCmd after).2 })
  else if s.endsAt after cw then (true, { s with c := s.caret after, cmd := (s.eatCmd after).2, iter := s.eatIter after })
  else (false, { s with
    c := s.caret after, cmd := (s.eatCmd after).2, iter := s.eatIter after,
    endWord := if s.eatState after = .txt then n - (s.eatIter after).length else s.endWord,
    inQuote := s.caret after == 34, state := s.eatState after })

/-- A character inside quotes, lib/src/cmd_tokenisers.cpp:562-574. -/
def WordLoop.quoted (n : Nat) (s : WordLoop) : WordLoop :=
  let l := next s.iter
  { s with c := peek s.iter, inQuote := peek s.iter != 34, iter := l, endWord := n - l.length, firstChar := false }

theorem skipSeps_le (ds l : List Nat) : (skipSeps ds l).length ≤ l.length := by
  fun_induction skipSeps ds l with
  | case1 l h h1 h2 ih => exact Nat.le_trans ih (Nat.le_trans (next_le _) (next_le _))
  | case2 => exact Nat.le_refl _
  | case3 l h h1 h2 ih => exact Nat.le_trans ih (next_le _)
  | case4 => exact Nat.le_refl _
  | case5 => exact Nat.le_refl _

theorem look_le (n : Nat) (cw : Bool) (s : WordLoop) : (s.look n cw).2.iter.length ≤ s.iter.length := by
  simp only [WordLoop.look]
  split
  · split
    · exact Nat.le_refl _
    · simp only [apply_ite WordLoop.iter, ite_self]
      exact skipSeps_le _ _
  · simp only [apply_ite WordLoop.iter, ite_self]
    exact Nat.le_refl _

theorem eat_lt {n after : Nat} {cw : Bool} {s : WordLoop} (h : more s.iter = true) (hs : (s.eat n after cw).1 = false) :
    (s.eat n after cw).2.iter.length < s.iter.length := by
  unfold WordLoop.eat at hs ⊢
  split at hs
  · simp at hs
  · rename_i h1
    split at hs
    · simp at hs
    · rename_i h2
      simp only [h1, h2, Bool.false_eq_true, if_false, WordLoop.eatIter]
      split
      · exact Nat.lt_of_le_of_lt (next_le _) (next_lt h)
      · exact next_lt h

/-- The loop of `cmd_word_tokeniser::next`, lib/src/cmd_tokenisers.cpp:558-663. -/
def wordLoop (n after : Nat) (cw : Bool) (s : WordLoop) : WordLoop :=
  if s.inQuote then
    if h : more s.iter = true then wordLoop n after cw (s.quoted n) else s
  else
    let p := s.look n cw
    if p.1 then p.2
    else if h : more p.2.iter = true then
      let e := p.2.eat n after cw
      if he : e.1 = true then e.2 else wordLoop n after cw { e.2 with firstChar := false }
    else p.2
termination_by s.iter.length
decreasing_by
  · exact next_lt h
  · exact Nat.lt_of_lt_of_le (eat_lt h (by simpa using he)) (look_le _ _ _)

/-- A word as returned by the tokeniser. -/
structure Tok where
  offset : Nat
  length : Nat
  delim : Nat
  redirArg : Bool
  deriving DecidableEq, Repr

/-- `cmd_word_tokeniser::start`, lib/src/cmd_tokenisers.cpp:498-503 and 109-115. -/
def WordTok.start (cmd : CmdState) (text : List Nat) (atBeginning : Bool) : WordTok :=
  { iter := text, cmd := cmd.clear atBeginning, commandWord := atBeginning }

/-- `cmd_word_tokeniser::next`, lib/src/cmd_tokenisers.cpp:506-671, when there is more text.  `delim` is converted to
`uint8`. -/
def WordTok.next (n after : Nat) (t : WordTok) : Tok × WordTok :=
  let s0 : WordLoop := { iter := t.iter, nextRedir := t.nextRedir, cmd := t.cmd, redirArg := false, startWord := 0, endWord := 0 }
  let s := wordLoop n after t.commandWord (s0.startNew n t.commandWord)
  ({ offset := s.startWord, length := s.endWord - s.startWord, delim := if more s.iter then s.c % 256 else 0, redirArg := s.redirArg },
   { iter := s.iter, nextRedir := s.nextRedir, cmd := s.cmd, commandWord := if s.redirArg then t.commandWord else false })

/-- `while (token = m_word_tokeniser->next(…))`, lib/src/word_collector.cpp:262-268: the tokens of one command, up to
the first that is not valid.  None if it does not terminate. -/
def tokens (n after : Nat) (t : WordTok) : Option (List Tok) :=
  if more t.iter then
    let r := t.next n after
    if r.1.delim = 255 then some []
    else if r.2.iter.length < t.iter.length then (tokens n after r.2).map (r.1 :: ·) else none
  else some []
termination_by t.iter.length

/-! ## The words of the line -/

/-- `word`, lib/include/lib/line_state.h:12-25.  `is_cmd_command` and `is_merged_away` are not set here. -/
structure Word where
  offset : Nat
  length : Nat
  command : Bool
  isAlias : Bool
  redirArg : Bool
  quoted : Bool
  delim : Nat
  deriving DecidableEq, Repr

/-- The constructor of `word`; offset and length have 16 bits. -/
def mkWord (offset length : Nat) (command isAlias redirArg : Bool) (delim : Nat) : Word :=
  ⟨offset % 65536, length % 65536, command, isAlias, redirArg, false, delim % 256⟩

/-- `word_collector::is_alias_allowed`, lib/src/word_collector.cpp:156-183.  `before` is the text before the command,
backwards. -/
def aliasAllowedLoop (enh : Bool) (spaces : Nat) : List Nat → Bool
  | [] => spaces = 0
  | c :: r =>
    if c = 38 ∨ c = 124 then enh && spaces ≤ 1
    else if c ≠ 32 then false
    else aliasAllowedLoop enh (spaces + 1) r

def aliasAllowed (enh : Bool) (buffer : List Nat) (offset : Nat) : Bool :=
  buffer.getD offset 0 ≠ 32 && aliasAllowedLoop enh 0 (buffer.take offset).reverse

/-- The loop over a flag, lib/src/word_collector.cpp:312-332: the length up to a colon, or whether the last character
was reached.  `n` is the length of the word. -/
def flagLoop (n : Nat) (l : List Nat) : Option Nat × Bool :=
  if h : more l = true then
    if peek l = 0 then (none, false)
    else if peek l = 58 then (some (n - (next l).length), false)
    else if more (next l) then flagLoop n (next l)
    else (none, true)
  else (none, false)
termination_by l.length
decreasing_by exact next_lt h

/-- The words added for one token, lib/src/word_collector.cpp:270-338.  `base` is where the tokeniser started, `stop`
the end of the command, `first` whether no word of the command has been added. -/
def tokenWords (buffer : List Nat) (base stop : Nat) (depr first : Bool) (t : Tok) : List Word :=
  let o := t.offset + base
  let plus := 2 ≤ o ∧ buffer.getD (o - 1) 0 = 43 ∧ buffer.getD (o - 2) 0 = 32
  let o' := if plus then o - 1 else o
  let n := if plus then t.length + 1 else t.length
  let w := (buffer.drop o').take n
  if t.redirArg = false ∧ depr = false ∧ n > 1 ∧ (w.headD 0 = 45 ∨ w.headD 0 = 47 ∨ w.headD 0 = 0) then
    match flagLoop n w with
    | (some k, _) => [mkWord o' k first false false 58, mkWord (o' + k) (n - k) false false t.redirArg t.delim]
    | (none, last) =>
      let more := ((buffer.take stop).drop (o' + n)).takeWhile (· == 61)
      [mkWord o' (if last then n + more.length else n) first false t.redirArg t.delim]
  else [mkWord o' n first false t.redirArg t.delim]

/-- The words of all tokens of a command. -/
def allTokenWords (buffer : List Nat) (base stop : Nat) (depr : Bool) : (first : Bool) → List Tok → List Word
  | _, [] => []
  | first, t :: ts => tokenWords buffer base stop depr first t ++ allTokenWords buffer base stop depr false ts

/-- `get_alias` finds an alias that is not empty. -/
def hasAlias (lookup : Lookup) (name : List Nat) : Bool := match lookup name with | some (_ :: _) => true | _ => false

/-- The words of one command, lib/src/word_collector.cpp:205-339, and whether it had none.  `depr` says for which names
there is a deprecated argmatcher. -/
def commandWords (lookup : Lookup) (enh : Bool) (depr : List Nat → Bool) (buffer : List Nat) (lineStop : Nat) (cmd : CmdState)
    (r : Nat × Nat) : Option (List Word) :=
  let name := ((buffer.drop r.1).take r.2).takeWhile fun c => c ≠ 32 ∧ c ≠ 9
  let isAlias : Bool := name ≠ [] && aliasAllowed enh buffer r.1 && hasAlias lookup name
  let spaces := ((buffer.take lineStop).drop (r.1 + name.length)).takeWhile fun c => c = 32 ∨ c = 9
  let d := if isAlias then name.length + spaces.length else 0
  let len := if r.1 + r.2 ≤ lineStop ∧ r.1 + d ≤ lineStop ∧ d ≤ r.2 then r.2 - d else 0
  let text := (buffer.drop (r.1 + d)).take len
  (tokens text.length (buffer.getD (r.1 + d + len) 0) (.start cmd text (!isAlias))).map fun ts =>
    (if isAlias then [mkWord r.1 name.length true true false (buffer.getD r.1 0)] else []) ++
      allTokenWords buffer (r.1 + d) (r.1 + r.2) (name ≠ [] && depr name) (!isAlias) ts

/-- Words of several commands. -/
def allWords (f : Nat × Nat → Option (List Word)) : List (Nat × Nat) → Option (List Word)
  | [] => some []
  | r :: rs => (f r).bind fun ws => (allWords f rs).map (ws ++ ·)

/-- The special case for "./" and "../", lib/src/word_collector.cpp:342-370.  `translate` is the setting
`match.translate_slashes`. -/
def mergeDots (buffer : List Nat) (translate : Nat) (ws : List Word) : List Word :=
  match ws.reverse with
  | w :: cw :: rest =>
    if (translate = 1 ∨ translate = 3) ∧ cw.command ∧ cw.length > 0 ∧ w.length > 0 ∧ w.offset = cw.offset + cw.length ∧
        buffer.getD w.offset 0 = 47 ∧ buffer.getD cw.offset 0 = 46 ∧
        (cw.length = 1 ∨ cw.length = 2 ∧ buffer.getD (cw.offset + 1) 0 = 46) then
      ({ cw with length := (cw.length + w.length) % 65536 } :: rest).reverse
    else ws
  | _ => ws

/-- The empty word at the end, lib/src/word_collector.cpp:372-382.  `first`: the last command has no words. -/
def addEnd (buffer : List Nat) (cursor : Nat) (stop first : Bool) (ws : List Word) : List Word :=
  let e := mkWord cursor 0 first false false (if cursor ≠ 0 then buffer.getD (cursor - 1) 0 else 0)
  match ws.getLast? with
  | none => [e]
  | some w => if stop ∧ w.offset + w.length < cursor then ws ++ [e] else ws

/-- The scan for the last closing quote, lib/src/word_collector.cpp:396-410: whether the text ends inside quotes, and
the offset of the last closing quote.  `i` is the offset of the first character of the text. -/
def quoteLoop (i : Nat) (quoted : Bool) (last : Nat) : List Nat → Bool × Nat
  | [] => (quoted, last)
  | [c] => if c = 34 then (!quoted, if quoted then i else last) else (quoted, last)
  | c :: d :: r =>
    if c = 34 then quoteLoop (i + 1) (!quoted) (if quoted then i else last) (d :: r)
    else if quoted = false ∧ c = 94 then quoteLoop (i + 2) quoted last r
    else quoteLoop (i + 1) quoted last (d :: r)

/-- The adjustment for quotes, lib/src/word_collector.cpp:384-417. -/
def unquote (buffer : List Nat) (w : Word) : Word :=
  if w.length = 0 ∨ w.isAlias then w
  else
    let text := (buffer.drop w.offset).take w.length
    if text.headD 0 = 34 then
      let p := quoteLoop 1 true 0 text.tail
      let e := if w.length > 1 ∧ buffer.getD (w.offset + w.length - 1) 0 = 34 ∧ p.1 = false ∧ p.2 + 1 = w.length then 1 else 0
      { w with offset := (w.offset + 1) % 65536, length := w.length - (1 + e), quoted := true }
    else { w with quoted := false }

/-- `word_collector::collect_words`, lib/src/word_collector.cpp:186-437: the words.  The offset of the command that it
returns is not modelled. -/
def collect (lookup : Lookup) (enh : Bool) (depr : List Nat → Bool) (translate : Nat) (buffer : List Nat) (cursor : Nat) (stop : Bool) :
    Option (List Word) :=
  (bounds lookup enh buffer cursor stop).bind fun rs =>
    let lineStop := if stop then cursor else buffer.length
    let words := commandWords lookup enh depr buffer lineStop {}
    (allWords words rs).bind fun ws =>
      (words (rs.getLastD (0, 0))).map fun lastWords =>
        let ws := if stop then mergeDots buffer translate ws else ws
        (addEnd buffer cursor stop (lastWords = []) ws).map (unquote buffer)

end Clink.Tokens
