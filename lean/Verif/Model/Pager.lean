/-
Lists that are shown page by page: the pager of `show-rl-help` and other lists (clink/lib/src/pager_impl.cpp), and the list of
matches (clink/lib/src/display_matches.cpp:862-1040).

What is shown is a list of items; an item has a content and a number of lines.  The input is a list of keys, each with the number of
rows that the terminal has at that time.  The text of the prompts, erasing them, and colours are not in the model; a key that is not
known is ignored.  The number of lines of an item is what the callers compute.
-/
namespace Clink.Pager

abbrev Item := List Nat × Nat

inductive Key
  | page | half | line | stop | help | other
deriving Repr, DecidableEq

/-- What is seen: an item, or the prompt with the answer (`none`: no answer yet) and the rows of the terminal. -/
inductive Ev
  | item (x : Item)
  | prompt (answer : Option (Key × Nat))
deriving Repr, DecidableEq

/-- The keys of the pager (lib/src/pager_impl.cpp:49-65). -/
def pagerKey (c : Nat) : Key :=
  if c = 63 then .help
  else if c ∈ [32, 9, 121, 89] then .page
  else if c ∈ [100, 68] then .half
  else if c = 13 then .line
  else if c ∈ [110, 78, 113, 81, 3, 4, 27] then .stop
  else .other

/-- `get_y_or_n` for the pager (readline/readline/complete.c:857-882); ^G leaves Readline's command. -/
def yesNo (c : Nat) : Key :=
  if c ∈ [121, 89, 32] then .page
  else if c ∈ [110, 78, 127, 27] then .stop
  else if c = 7 then .stop
  else if c = 63 then .help
  else if c ∈ [100, 68] then .half
  else if c = 9 then .page
  else if c = 10 ∨ c = 13 then .line
  else if c ∈ [113, 81] then .stop
  else .other

/-- Waiting for a key that is an answer (`pager_impl::on_input`, lib/src/pager_impl.cpp:85-98, where help and unknown keys continue;
the loops in `internal_pager`, lib/src/display_matches.cpp:866-879, and `get_y_or_n`). -/
def ask (f : Nat → Key) : List (Nat × Nat) → Option (Key × Nat × List (Nat × Nat))
  | [] => none
  | (c, rows) :: rest =>
    match f c with
    | .help => ask f rest
    | .other => ask f rest
    | k => some (k, rows, rest)

/-- `set_limit` (lib/src/pager_impl.cpp:152-162), for the answers. -/
def setLimit (k : Key) (rows : Nat) : Int :=
  match k with
  | .line => 1
  | .half => max ((rows : Int) / 2) 0
  | .page => max ((rows : Int) - 2) 0
  | _ => 0

/-- `start_pager` (lib/src/pager_impl.cpp:116-119, 160). -/
def firstPage (rows : Nat) : Int := max ((rows : Int) - 1) 0

structure Res where
  ok : Bool
  max : Int
  input : List (Nat × Nat)
  asked : List Ev
deriving Repr, DecidableEq

/-- `on_print_lines` (lib/src/pager_impl.cpp:122-149); `max` is `m_max`.  Being interrupted by a signal (lines 141-145) is as the
answer to stop.  If there is no answer it never returns, which is `ok = false` here. -/
def onPrintLines (max : Int) (lines : Nat) (input : List (Nat × Nat)) : Res :=
  if max < 0 then ⟨false, 0, input, []⟩
  else if max = 0 then ⟨true, 0, input, []⟩
  else if max - lines > 0 then ⟨true, max - lines, input, []⟩
  else
    match ask pagerKey input with
    | none => ⟨false, 0, [], [.prompt none]⟩
    | some (k, rows, rest) =>
      let max := if k = .stop then -1 else setLimit k rows
      ⟨max ≥ 0, max, rest, [.prompt (some (k, rows))]⟩

/-- The loop over lines in `show_key_bindings` (lib/src/rl/rl_help.cpp:1428-1534). -/
def showFrom (max : Int) : List Item → List (Nat × Nat) → List Ev
  | [], _ => []
  | x :: xs, input =>
    let r := onPrintLines max x.2 input
    r.asked ++ if r.ok then .item x :: showFrom r.max xs r.input else []

/-- The list, in a terminal with so many rows (lib/src/rl/rl_help.cpp:1418). -/
def showList (rows : Nat) (xs : List Item) (input : List (Nat × Nat)) : List Ev := showFrom (firstPage rows) xs input

/-! The list of matches. -/

/-- The loop over columns (lib/src/display_matches.cpp:927-930, 1003), from column `j` with match `l`. -/
def columns (count limit minor : Nat) (j l : Nat) : List Nat :=
  if j < limit then
    if l ≥ count then [] else l :: columns count limit minor (j + 1) (l + minor)
  else []
termination_by limit - j

/-- The matches of every row (lib/src/display_matches.cpp:899, 914-915, 924-927). -/
def matchRows (count limit : Nat) (horizontally : Bool) : List (List Nat) :=
  let rows := (count + (limit - 1)) / limit
  let major := if horizontally then limit else 1
  let minor := if horizontally then 1 else rows
  (List.range rows).map fun i => columns count limit minor 0 (i * major)

/-- `internal_pager` (lib/src/display_matches.cpp:862-881), after the answer. -/
def internalPager (k : Key) (lines : Int) : Int :=
  match k with
  | .page => 0
  | .line => lines - 1
  | .half => lines / 2
  | _ => -1

/-- The loop over rows (lib/src/display_matches.cpp:923-924, 1016-1030), with `_rl_page_completions` and the height of the terminal. -/
def showRows (pages : Bool) (height : Nat) (lines : Int) : List Item → List (Nat × Nat) → List Ev
  | [], _ => []
  | x :: xs, input =>
    if pages ∧ lines > 0 ∧ lines + x.2 ≥ height then
      match ask yesNo input with
      | none => [.prompt none]
      | some (k, rows, rest) =>
        .prompt (some (k, rows)) ::
          if internalPager k lines < 0 then [] else .item x :: showRows pages height (internalPager k lines + x.2) xs rest
    else .item x :: showRows pages height (lines + x.2) xs input

/-- The list of matches; `wide` is how many lines a row has. -/
def showMatches (pages : Bool) (height : Nat) (count limit : Nat) (horizontally : Bool) (wide : List Nat → Nat) (input : List (Nat × Nat)) : List Ev :=
  showRows pages height 0 ((matchRows count limit horizontally).map fun r => (r, wide r)) input

end Clink.Pager
