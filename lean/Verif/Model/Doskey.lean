import Verif.Model.Utf

/-!
Model of doskey alias resolution.
Sources: clink/lib/src/doskey.cpp, clink/lib/src/cmd_tokenisers.cpp, clink/core/src/str_tokeniser.cpp.

Text is a list of bytes without NUL; an iterator is the list of bytes from its pointer to its end, so the
distance between two pointers into the same text is a difference of lengths.

`lookup` is the alias table as seen through `GetConsoleAliasW` (names and texts in UTF-8).  It is the same
table for `os::get_alias` and `doskey`.  `enh` is the setting `doskey.enhanced`.  The cursor position
(`point`) is not modelled; it does not influence the text.
-/

namespace Clink.Doskey

open Utf (more next8)

abbrev Lookup := List Nat → Option (List Nat)

def peek (l : List Nat) : Nat := (next8 l).1
def next (l : List Nat) : List Nat := (next8 l).2

theorem next_lt {l : List Nat} (h : more l = true) : (next l).length < l.length := Utf.next8_shorter l h
theorem next_le (l : List Nat) : (next l).length ≤ l.length := Utf.next8Loop_len 0 0 l

/-- The loop of `is_alias_word`, lib/src/cmd_tokenisers.cpp:280-286. -/
def skipWord (l : List Nat) : List Nat :=
  if h : more l = true then if peek l = 32 ∨ peek l = 9 then l else skipWord (next l) else l
termination_by l.length
decreasing_by exact next_lt h

/-- The text between two iterators. -/
def between (a b : List Nat) : List Nat := a.take (a.length - b.length)

/-- `is_alias_word`, lib/src/cmd_tokenisers.cpp:277-299; an alias with an empty text does not count
(core/src/os.cpp:997-1001). -/
def isAliasWord (lookup : Lookup) (l : List Nat) : Nat :=
  let w := between l (skipWord l)
  if w = [] then 0 else match lookup w with
    | some (_ :: _) => w.length
    | _ => 0

/-- The loop of `skip_leading_parens`, lib/src/cmd_tokenisers.cpp:312-328: the iterator and the number of
parentheses. -/
def parenLoop (l orig : List Nat) (parens : Nat) : List Nat × Nat :=
  if h : more l = true then
    if peek l = 40 then
      let l1 := next l
      let l2 := if more l1 ∧ (peek l1 = 32 ∨ peek l1 = 64) then next l1 else l1
      parenLoop l2 l2 (parens + 1)
    else if peek l = 32 ∨ peek l = 64 then parenLoop (next l) orig parens
    else (orig, parens)
  else (orig, parens)
termination_by l.length
decreasing_by
  · have := next_lt h
    split
    · have := next_le (next l); omega
    · omega
  · exact next_lt h

/-- `skip_leading_parens`, lib/src/cmd_tokenisers.cpp:302-332, with `first || enhanced` given. -/
def skipParens (lookup : Lookup) (fe : Bool) (l : List Nat) : List Nat × Nat :=
  if fe ∧ more l ∧ peek l = 40 ∧ isAliasWord lookup l ≠ 0 then (l, 0) else parenLoop l l 0

/-- The loop of `trim_trailing_parens`, lib/src/cmd_tokenisers.cpp:340-350. -/
def trimLoop (start : List Nat) (offset : Nat) : (length ret parens : Nat) → Nat
  | 0, ret, _ => ret
  | n + 1, ret, parens =>
    if 0 < parens ∧ offset < n + 1 then
      if start.getD n 0 = 41 then trimLoop start offset n n (parens - 1)
      else if start.getD n 0 ≠ 32 then ret
      else trimLoop start offset n ret parens
    else ret

/-- `trim_trailing_parens`, lib/src/cmd_tokenisers.cpp:335-353. -/
def trimParens (start : List Nat) (offset length parens : Nat) : Nat := trimLoop start offset length length parens

/-- The loop finding the end of the alias, lib/src/doskey.cpp:51-72: the iterator. -/
def aliasEnd (relaxed : Bool) (l : List Nat) : List Nat :=
  if h : more l = true then
    if peek l = 62 then
      let l1 := next l
      aliasEnd relaxed (if peek l1 = 38 then next l1 else l1)
    else if peek l = 0 ∨ peek l = 32 ∨ (relaxed ∧ (peek l = 124 ∨ peek l = 38)) then l
    else aliasEnd relaxed (next l)
  else l
termination_by l.length
decreasing_by
  · have := next_lt h
    split
    · have := next_le (next l); omega
    · omega
  · exact next_lt h

/-- The loop at lib/src/doskey.cpp:97-98. -/
def skipSpaces (l : List Nat) : List Nat :=
  if h : more l = true then if peek l = 32 then skipSpaces (next l) else l else l
termination_by l.length
decreasing_by exact next_lt h

structure Alias where
  /-- The text skipped before the alias. -/
  skipped : List Nat
  name : List Nat
  text : List Nat
  parens : Nat
  /-- The input after the alias. -/
  rest : List Nat

/-- One attempt of `get_alias`, lib/src/doskey.cpp:32-100; `none`: line 48, 79 or 80. -/
def tryAlias (lookup : Lookup) (relaxed : Bool) (l : List Nat) : Option Alias :=
  let (start, parens) := skipParens lookup true l
  if more start ∧ start.head? = some 32 then none
  else
    let e := aliasEnd relaxed start
    let name := start.take (trimParens start 0 (start.length - e.length) parens)
    if name = [] then none
    else (lookup name).map fun text => ⟨between l start, name, text, parens, skipSpaces e⟩

/-- `get_alias`, lib/src/doskey.cpp:32-100.  A leading space ends the first attempt without a second one
(line 48), but the second one would fail there as well. -/
def getAlias (lookup : Lookup) (enh : Bool) (l : List Nat) : Option Alias :=
  match tryAlias lookup false l with
  | some a => some a
  | none => if enh then tryAlias lookup true l else none

/-- `find_command_end`, lib/src/doskey.cpp:103-135: the text from the end on. -/
def findEnd (quote : Bool) (l : List Nat) : List Nat :=
  if h : more l = true then
    let c := peek l
    let l1 := next l
    if c = 34 then findEnd (!quote) l1
    else if quote then findEnd quote l1
    else if c = 62 ∧ peek l1 = 38 then findEnd quote (next l1)
    else if c = 94 ∧ more l1 then findEnd quote (next l1)
    else if c = 124 ∨ c = 38 then l
    else findEnd quote l1
  else l
termination_by l.length
decreasing_by
  all_goals
    have h1 := next_lt h
    have h2 := next_le (next l)
    omega

/-- The loop that looks for argument tags inside quotes, lib/src/doskey.cpp:371-396: whether to split. -/
def splits (quote : Bool) (l : List Nat) : Bool :=
  if h : more l = true then
    let c := peek l
    let l1 := next l
    let quote := if c = 34 then !quote else quote
    if c ≠ 36 then splits quote l1
    else
      let tag := peek l1
      if tag = 42 ∨ (49 ≤ tag ∧ tag ≤ 57) then if quote then false else splits quote l1
      else if tag = 36 then splits quote (next l1)
      else splits quote l1
  else true
termination_by l.length
decreasing_by
  all_goals
    have h1 := next_lt h
    have h2 := next_le (next l)
    omega

/-- First loop of `next_impl`, core/src/str_tokeniser.cpp:97-105, for the delimiter space. -/
def skipDelims (l : List Nat) : List Nat :=
  if h : more l = true then if peek l = 32 then skipDelims (next l) else l else l
termination_by l.length
decreasing_by exact next_lt h

/-- Second loop of `next_impl`, core/src/str_tokeniser.cpp:111-125.  `q`: quotes are respected; `inq`:
`quote_close` is set.  The loop also ends when the code point is 0, which can happen in malformed text. -/
def tokenEnd (q inq : Bool) (l : List Nat) : List Nat :=
  if h : more l = true then
    let c := peek l
    if c = 0 then l
    else if inq then tokenEnd q (c != 34) (next l)
    else if c = 32 then l
    else tokenEnd q (q && c == 34) (next l)
  else l
termination_by l.length
decreasing_by all_goals exact next_lt h

/-- `next_impl`, core/src/str_tokeniser.cpp:95-141: the token with the rest of the text from its start,
and the iterator. -/
def nextToken (q : Bool) (l : List Nat) : Option (List Nat × List Nat × List Nat) :=
  let start := skipDelims l
  let e := tokenEnd q false start
  if between start e = [] then none else some (between start e, start, e)

/-- The loop collecting the arguments, lib/src/doskey.cpp:432-435; room for ten.  An argument is kept as
its text together with what follows it (so that its pointer is known). -/
def collect (q : Bool) : Nat → List Nat → List (List Nat × List Nat)
  | 0, _ => []
  | n + 1, l => match nextToken q l with
    | none => []
    | some (w, start, e) => (w, start) :: collect q n e

/-- `short(length)` used as the length of a copy, lib/src/doskey.cpp:435 and 603: a negative value makes the
copy run over all memory. -/
def shortLen (n : Nat) : Option Nat := if n % 65536 < 32768 then some (n % 65536) else none

/-- The value of `$1` to `$9`, lib/src/doskey.cpp:600-604. -/
def argText (args : List (List Nat × List Nat)) (i : Nat) : Option (List Nat) :=
  match args[i]? with
  | none => some []
  | some (w, start) => (shortLen w.length).map start.take

/-- The value of `$*`, lib/src/doskey.cpp:594-599: from the first argument to the end of the command, which
is `k` bytes before the end of the line. -/
def starText (args : List (List Nat × List Nat)) (k : Nat) : List Nat :=
  match args with
  | [] => []
  | (_, start) :: _ => start.take (start.length - k)

/-- The expansion loop, lib/src/doskey.cpp:491-605 without the cursor. -/
def expand (args : List (List Nat × List Nat)) (star : List Nat) : List Nat → Option (List Nat)
  | [] => some []
  | c :: l =>
    if c ≠ 36 then (expand args star l).map (c :: ·)
    else match l with
      | [] => some []
      | t :: l =>
        if t = 36 then (expand args star l).map (36 :: ·)
        else if t = 103 ∨ t = 71 then (expand args star l).map (62 :: ·)
        else if t = 108 ∨ t = 76 then (expand args star l).map (60 :: ·)
        else if t = 98 ∨ t = 66 then (expand args star l).map (124 :: ·)
        else if t = 116 ∨ t = 84 then (expand args star l).map (10 :: ·)
        else if 49 ≤ t ∧ t ≤ 57 then
          (argText args (t - 49)).bind fun a => (expand args star l).map (a ++ ·)
        else if t = 42 then (expand args star l).map (star ++ ·)
        else (expand args star l).map (fun r => 36 :: t :: r)

/-- `doskey::resolve_impl`, lib/src/doskey.cpp:316-633.  `none`: undefined behaviour.  `some none`: not
resolved.  Otherwise what is written and the rest of the input. -/
def resolveImpl (lookup : Lookup) (enh : Bool) (s : List Nat) : Option (Option (List Nat × List Nat)) :=
  match getAlias lookup enh s with
  | none => some none
  | some a =>
    if enh && splits false a.text then
      let ptr := findEnd false a.rest
      let input := a.rest.take (trimParens a.rest 0 (a.rest.length - ptr.length) a.parens)
      -- the arguments are taken from the shortened input; the texts behind them reach to the end of the line
      let args := (collect enh 10 input).map fun (w, start) => (w, start ++ a.rest.drop input.length)
      (expand args (starText args ptr.length) a.text).map fun t => some (a.skipped ++ t, ptr)
    else
      let args := collect enh 10 a.rest
      (expand args (starText args 0) a.text).map fun t => some (a.skipped ++ t, [])

/-- The loop copying delimiters, lib/src/doskey.cpp:663-670: what is copied and the rest. -/
def copyDelims : List Nat → List Nat × List Nat
  | [] => ([], [])
  | c :: l =>
    if c = 124 ∨ c = 38 then
      -- `text.next()` moves over one code point, which is this byte
      let (a, b) := copyDelims l
      (c :: a, b)
    else ([], c :: l)

/-- One space after the delimiters, lib/src/doskey.cpp:678-682. -/
def copySpace : List Nat → List Nat × List Nat
  | 32 :: l => ([32], l)
  | l => ([], l)

/-- The loop of `doskey::resolve`, lib/src/doskey.cpp:646-683: the text written and `resolves`.  If
the text did not get shorter, the C++ loop starts over with the same text and never ends: `none`. -/
def resolveLoop (lookup : Lookup) (enh : Bool) (out : List Nat) (resolves : Bool) (text : List Nat) :
    Option (List Nat × Bool) :=
  if more text = true then
    match resolveImpl lookup enh text with
    | none => none
    | some r =>
      if r = none ∧ enh = false then some (out, resolves)
      else
        let p := r.getD (between text (findEnd false text), findEnd false text)
        let d := copyDelims p.2
        let e := copySpace d.2
        if _h : e.2.length < text.length then
          resolveLoop lookup enh (out ++ p.1 ++ d.1 ++ e.1) (resolves || r.isSome) e.2
        else none
  else some (out, resolves)
termination_by text.length

/-- `doskey::resolve`, lib/src/doskey.cpp:636-693: the text that replaces the line, if any.  The buffer ends
with a NUL; `doskey_alias::next` (lines 262-278) hands it out split at the line feeds. -/
def resolve (lookup : Lookup) (enh : Bool) (line : List Nat) : Option (Option (List Nat)) :=
  (resolveLoop lookup enh [] false line).map fun (out, r) => if r then some out else none

/-- `doskey_alias::next`, lib/src/doskey.cpp:262-277, called until it returns false. -/
def lines (l : List Nat) : List (List Nat) :=
  match l with
  | [] => []
  | c :: l =>
    if c = 10 then [] :: lines l
    else match l with
      | [] => [[c]]
      | _ :: _ => match lines l with
        | [] => [[c]]
        | w :: ws => (c :: w) :: ws

end Clink.Doskey
