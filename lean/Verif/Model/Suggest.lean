import Verif.Model.StrCompare
/-
Model of the inline suggestion: clink/lib/src/suggestions.cpp (`suggestion_manager`), with the
operations of clink/lib/src/rl/rl_buffer.cpp that it uses and the two commands of
clink/lib/src/rl/rl_commands.cpp that accept several words.

Bytes are `Nat`; a `str_iter` is the list of bytes that it has not passed yet.  Not modelled:
drawing, undo groups, `m_locked` (only written here), generation numbers, tooltips and
highlights, the hint, the selection and the suggestion list.
-/
namespace Clink.Suggest
open Clink StrCompare

/-- The settings and the functions of other parts: `autosuggest.enable`,
`autosuggest.inline`, `autosuggest.original_case`, `match.ignore_case` (on or relaxed),
`match.ignore_accent`, `is_suggestion_list_active(true)`, `is_suggestion_list_enabled()`,
`CharLowerW`, and `rl_forward_word(1, 0)`, which gives the new cursor for a text and a cursor. -/
structure Cfg where
  enable : Bool
  inline : Bool
  originalCase : Bool
  ignoreCase : Bool
  fuzzy : Bool
  listActive : Bool
  listEnabled : Bool
  lower : Nat → Nat
  forwardWord : List Nat → Nat → Nat

/-- `struct suggestion`, lib/include/lib/suggestions.h:21-30 (the text, its offset, the source). -/
structure Item where
  text : List Nat
  offset : Nat
  source : List Nat
deriving DecidableEq, Repr

/-- `suggestion_manager` and its `m_suggestions` (`items` and `line`),
lib/include/lib/suggestions.h:33-92. -/
structure Mgr where
  items : List Item
  line : List Nat
  iter : List Nat
  started : List Nat
  endword : Nat
  paused : Bool
  suppress : Bool
deriving DecidableEq, Repr

/-- The line editor's buffer: text and cursor. -/
structure Buf where
  text : List Nat
  cursor : Nat
deriving DecidableEq, Repr

/-- `rl_buffer::set_cursor`, lib/src/rl/rl_buffer.cpp:123-134. -/
def Buf.setCursor (b : Buf) (pos : Nat) : Buf := { b with cursor := min pos b.text.length }

/-- `rl_buffer::remove(from, get_length())`, lib/src/rl/rl_buffer.cpp:158-168, with
`rl_delete_text`, readline/text.c:144-186. -/
def Buf.removeFrom (b : Buf) (pos : Nat) : Buf :=
  let t := b.text.take pos
  { text := t, cursor := min b.cursor t.length }

/-- `rl_buffer::insert`, lib/src/rl/rl_buffer.cpp:148-155, with `rl_insert_text`,
readline/text.c:98-140. -/
def Buf.insert (b : Buf) (s : List Nat) : Buf :=
  { text := b.text.take b.cursor ++ s ++ b.text.drop b.cursor, cursor := b.cursor + s.length }

/-- The comparison used for suggestions: caseless or exact, never relaxed, exact slashes,
lib/src/suggestions.cpp:255-258. -/
def mode (cfg : Cfg) : Mode := { mode := if cfg.ignoreCase then 1 else 0, fuzzy := cfg.fuzzy, exactSlash := true }

/-- `str_compare<char, false, true>`: where the two iterators are afterwards. -/
def cmp (cfg : Cfg) (l r : List Nat) : List Nat × List Nat :=
  (strCompare cfg.lower Utf.iter8 (mode cfg) false l r).2

/-- `suggestion_manager::clear`, lib/src/suggestions.cpp:310-328 (`m_endword_offset` is the
largest unsigned number). -/
def clear (m : Mgr) : Mgr :=
  { items := [], line := [], iter := [], started := [], endword := 2 ^ 32 - 1, paused := m.paused, suppress := false }

/-- `suggestion_manager::suppress_suggestions`, lib/src/suggestions.cpp:424-431. -/
def suppressNow (m : Mgr) (b : Buf) : Mgr :=
  { clear m with line := b.text, started := b.text, suppress := true }

/-- `suggestion_manager::get_visible`, lib/src/suggestions.cpp:237-300: the text shown, or
`none` for `false`. -/
def getVisible (cfg : Cfg) (m : Mgr) (b : Buf) : Option (List Nat) :=
  match m.items with
  | [] => none
  | it :: _ =>
    if cfg.listActive then none
    else if it.offset > b.text.length then none
    else
      let e := cmp cfg (b.text.drop it.offset) it.text
      if Utf.more e.1 then none
      else if cfg.inline then some (b.text.take (b.text.length - e.1.length) ++ e.2)
      else some b.text

/-- What `can_suggest` depends on besides the state: searching or reading a string, a
selection, whether the last command erased, and the end word offset of the line. -/
structure Ask where
  reading : Bool
  selection : Bool
  erased : Bool
  endword : Nat

/-- `suggestion_manager::can_suggest`, lib/src/suggestions.cpp:331-393. -/
def canSuggest (a : Ask) (m : Mgr) (b : Buf) : Bool × Mgr :=
  if m.paused then (false, m)
  else if a.reading then (false, clear m)
  else if b.cursor ≠ b.text.length then (false, clear m)
  else if a.selection then (false, m)
  else
    let diff := m.line != b.text
    if m.suppress then
      if a.erased then (false, suppressNow m b)
      else if diff then (diff, { clear m with endword := a.endword })
      else (false, m)
    else (diff, { m with endword := a.endword })

/-- The tail of `suggestion_manager::set` for no suggestions, lib/src/suggestions.cpp:506-520.
`set_line` appends to `m_line` (lib/src/suggestions.cpp:176-179), which `clear` has emptied. -/
def setNone (m : Mgr) (line : List Nat) : Mgr := { clear m with line := line, started := line }

/-- `suggestion_manager::set`, lib/src/suggestions.cpp:447-561; no list is the empty list.  The
`m_line` of the new list is empty: nothing else calls `set_line`. -/
def set (cfg : Cfg) (m : Mgr) (line : List Nat) (endword : Nat) (sugg : List Item) : Mgr :=
  if m.items = sugg ∧ m.endword = endword ∧ m.line = line then m
  else
    match sugg.filter (fun i => i.offset ≤ line.length) with
    | [] => setNone m line
    | it :: rest =>
      if !cfg.enable then setNone m line
      else if cfg.listEnabled then
        { items := it :: rest, line := line, iter := [], started := line, endword := endword,
          paused := m.paused, suppress := m.suppress }
      else
        let e := cmp cfg (line.drop it.offset) it.text
        if Utf.more e.1 then setNone m line
        else
          { items := it :: rest, line := line, iter := e.2, started := line, endword := endword,
            paused := m.paused, suppress := m.suppress }

/-- `is_suggestion_word_break`, lib/src/suggestions.cpp:578-581. -/
def blank (c : Nat) : Bool := c == 32 || c == 9

/-- The loop that follows the rest of the line in the suggestion and tracks quotes,
lib/src/suggestions.cpp:674-687; `len` and `off` stand for `target` and `inflection`.  `none`:
it never ends. -/
def follow (len off : Nat) (orig iter : List Nat) (quote : Bool) : Option (List Nat × Bool) :=
  if orig = [] then some (iter, quote)
  else
    let n := Utf.iter8.next orig
    if n.2.length < orig.length then
      let iter := if len - n.2.length > off then Utf.iter8.adv iter else iter
      follow len off n.2 iter (if n.1 = 34 then !quote else quote)
    else none
termination_by orig.length

/-- "Skip spaces", lib/src/suggestions.cpp:716-722. -/
def skipBlanks (l : List Nat) : List Nat :=
  if h : Utf.iter8.peek l ≠ 0 then
    if blank (Utf.iter8.peek l) then
      have := Utf.iter8.adv_lt h
      skipBlanks (Utf.iter8.adv l)
    else l
  else l
termination_by l.length

/-- "Skip non-spaces", lib/src/suggestions.cpp:724-732. -/
def skipWord (quote : Bool) (l : List Nat) : List Nat :=
  if h : Utf.iter8.peek l ≠ 0 then
    have := Utf.iter8.adv_lt h
    if Utf.iter8.peek l = 34 then skipWord (!quote) (Utf.iter8.adv l)
    else if !quote && blank (Utf.iter8.peek l) then l
    else skipWord quote (Utf.iter8.adv l)
  else l
termination_by l.length

/-- `resync_suggestion_iterator`, lib/src/suggestions.cpp:584-596: `consume` bytes are to be
passed (more, if a character ends behind them).  `none`: the iterator is at its end before, and
the loop never ends. -/
def resync (consume : Nat) (l : List Nat) : Option (List Nat) :=
  if consume = 0 then some l
  else
    let r := Utf.iter8.adv l
    if r.length < l.length then resync (consume - (l.length - r.length)) r else none
termination_by l.length

/-- `suggestion_action`, lib/include/lib/suggestions.h:13-18. -/
inductive Action
  | toEnd
  | nextWord
  | nextFullWord
deriving DecidableEq, Repr

/-- Inserting the suggestion and truncating the line, lib/src/suggestions.cpp:690-763, once
`m_iter` (`iter`) and `insert` (`ins`) are known. -/
def accept (cfg : Cfg) (act : Action) (m : Mgr) (b : Buf) (it : Item) (replace : Nat) (ins iter : List Nat)
    (quote : Bool) : Option (Bool × Mgr × Buf) :=
  let endOffset := if cfg.originalCase then it.offset + (it.text.length - iter.length) else b.text.length
  let replace := if cfg.originalCase then replace else b.text.length
  let ins := if cfg.originalCase then ins else iter
  let b := (b.removeFrom replace).insert ins
  let fin := fun (iter : List Nat) (b : Buf) =>
    if b.cursor < b.text.length then
      let b := b.removeFrom b.cursor
      (true, { m with iter := iter, line := m.line ++ b.text, started := b.text }, b)
    else (true, suppressNow m b, b)
  match act with
  | .toEnd => some (true, suppressNow m b, b)
  | .nextFullWord =>
    let b := b.setCursor endOffset
    let r := skipWord quote (skipBlanks iter)
    some (fin r (b.setCursor (b.cursor + (iter.length - r.length))))
  | .nextWord =>
    let b := b.setCursor endOffset
    let b := b.setCursor (cfg.forwardWord b.text b.cursor)
    match resync (b.cursor - endOffset) iter with
    | none => none
    | some r => some (fin r b)

/-- `suggestion_manager::insert`, lib/src/suggestions.cpp:608-766.  `none`: it reads behind the
end of the line, or never ends. -/
def insert (cfg : Cfg) (act : Action) (m : Mgr) (b : Buf) : Option (Bool × Mgr × Buf) :=
  if !cfg.enable || !cfg.inline then some (false, m, b)
  else
    match m.items with
    | [it] =>
      if cfg.listActive then some (false, m, b)
      else if !Utf.more m.iter || b.cursor ≠ b.text.length then some (false, m, b)
      else if cfg.originalCase && act = .toEnd && it.offset = 0 then
        let e := cmp cfg b.text it.text
        let b := if !Utf.more e.1 && Utf.more e.2 then (b.removeFrom 0).insert it.text else b
        some (!Utf.more e.1, suppressNow m b, b)
      else if m.endword > b.text.length ∨ it.offset > b.text.length then none
      else
        let e := if it.offset < m.endword then cmp cfg ((b.text.drop it.offset).take (m.endword - it.offset)) it.text
          else ([], it.text)
        if Utf.more e.1 then some (false, clear m, b)
        else
          let replace := max m.endword it.offset
          let quote := decide (m.endword > 0) && b.text.getD (m.endword - 1) 0 == 34
          match follow b.text.length it.offset (b.text.drop replace) e.2 quote with
          | none => none
          | some (iter, quote) => accept cfg act m b it replace e.2 iter quote
    | _ => some (false, m, b)

/-- The loop of `clink_forward_bigword` (and `clink_forward_word`),
lib/src/rl/rl_commands.cpp:1591-1621: accept up to `count` words. -/
def forward (cfg : Cfg) (act : Action) : Nat → Mgr → Buf → Option (Nat × Mgr × Buf)
  | 0, m, b => some (0, m, b)
  | n + 1, m, b =>
    match insert cfg act m b with
    | none => none
    | some (true, m', b') => forward cfg act n m' b'
    | some (false, m', b') => some (n + 1, m', b')

/-- `suggestions::remove_if_history_index`, lib/src/suggestions.cpp:205-222, on the history
indices of the list: the comparisons are unsigned (`int32` with `uint32`). -/
def removeIndex (h : Nat) (l : List Int) : List Int :=
  (l.filter fun i : Int => i % 2 ^ 32 != (h : Int)).map fun i : Int => if i % 2 ^ 32 > (h : Int) then i - 1 else i

end Clink.Suggest
