/-
Reusing lines of the history with `history.sticky_search` (clink/lib/src/sticky_search.cpp), with the commands `previous-history` and
`next-history` of Readline (readline/readline/misc.c, history.c), as used by `rl_module` and `host`.

The history is read again for each line (clink/app/src/host/host.cpp:1065-1069).  An undo list is a number that identifies it and the text that
undoing everything would give.  Searching the history, `operate-and-get-next`, undoing, numeric arguments and commands that replace
the whole line other than from the history are not modelled; `revert-all-at-newline` is off, as by default.
-/
namespace Clink.Sticky

abbrev Text := List Nat
abbrev Undo := Option (Nat × Text)

/-- Editing one line.  `mem` is the history in memory with the undo list of each entry (`data`), `off` is `history_offset`, `useCurr` is
`history_prev_use_curr`, `buf` and `undo` are the line and its undo list, `saved` is `_rl_saved_line_for_history`, and `init` is
`s_init_history_pos`. -/
structure Ed where
  mem : List (Text × Undo)
  off : Nat
  useCurr : Bool
  buf : Text
  undo : Undo
  saved : Option (Text × Undo)
  init : Option Nat
  fresh : Nat
deriving Repr, DecidableEq

/-- The beginning of a line (rl/rl_module.cpp:2830-2837): `_rl_start_using_history` (readline misc.c:348-358) and `restore_sticky_search_position`
(lib/src/sticky_search.cpp:70-80) with `history_set_pos` (readline history.c:172-184). -/
def start (hist : List Text) (init : Option Nat) : Ed :=
  { mem := hist.map fun l => (l, none),
    off := match init with
      | some p => if p > hist.length then hist.length else p
      | none => hist.length,
    useCurr := init.isSome, buf := [], undo := none, saved := none, init := init, fresh := 0 }

/-- `_rl_maybe_replace_line (1)` (readline misc.c:377-401). -/
def maybeReplace (e : Ed) : Ed :=
  match e.mem[e.off]? with
  | none => e
  | some (_, d) =>
    if d ≠ e.undo then
      { e with mem := e.mem.set e.off (e.buf, e.undo), saved := e.saved.map fun s => if s.2 = e.undo then (s.1, none) else s, undo := none }
    else e

/-- `rl_get_previous_history` (readline misc.c:753-788) and `_rl_previous_history_internal` (readline misc.c:700-749). -/
def up (e : Ed) : Ed :=
  let e2 := maybeReplace { e with saved := some (e.saved.getD (e.buf, e.undo)) }
  let off := if e2.useCurr then e2.off else e2.off - 1
  match (if e2.useCurr ∨ e2.off > 0 then e2.mem[off]? else none) with
  | some (l, d) => { e2 with off := off, useCurr := false, buf := l, undo := d }
  | none => { e2 with useCurr := false, saved := if e.saved.isSome then e2.saved else none }

/-- `rl_get_next_history` (readline misc.c:674-698), `_rl_next_history_internal` (readline misc.c:640-671), `next_history` (readline
history.c:233-237) and `rl_maybe_unsave_line` (readline misc.c:424-435). -/
def down (e : Ed) : Ed :=
  let e2 := maybeReplace e
  let off := if e2.off = e2.mem.length then e2.off else e2.off + 1
  match e2.mem[off]? with
  | some (l, d) => { e2 with off := off, useCurr := false, buf := l, undo := d }
  | none =>
    match e2.saved with
    | some (l, d) => { e2 with off := off, useCurr := false, buf := l, undo := d, saved := none }
    | none => { e2 with off := off, useCurr := false }

/-- `buffer_changing` (rl/rl_module.cpp:1376-1391), `has_sticky_search_position`, `clear_sticky_search_position` (lib/src/sticky_search.cpp:83-93). -/
def changing (sticky : Bool) (e : Ed) : Ed :=
  if sticky ∧ e.init.isSome then { e with init := none, useCurr := false, off := if e.buf = [] then e.mem.length else e.off } else e

/-- A change of the text to `l` that can be undone, with `rl_add_undo` (readline undo.c:101-110). -/
def insert (l : Text) (e : Ed) : Ed :=
  { e with buf := l, fresh := e.fresh + 1,
           undo := match e.undo with
             | none => some (e.fresh, e.buf)
             | some (_, base) => some (e.fresh, base) }

def type (sticky : Bool) (l : Text) (e : Ed) : Ed := insert l (changing sticky e)

inductive Key where
  | up
  | down
  | type (l : Text)
deriving Repr, DecidableEq

def key (sticky : Bool) (e : Ed) : Key → Ed
  | .up => up e
  | .down => down e
  | .type l => type sticky l e

/-- `readline_common_teardown` (readline readline.c:490-521): an entry that was changed gets its text back. -/
def teardown (e : Ed) : List (Text × Undo) :=
  match e.mem[e.off]?, e.undo with
  | some _, some (_, base) => e.mem.set e.off (base, none)
  | _, _ => e.mem

/-- `save_sticky_search_position` (lib/src/sticky_search.cpp:34-56). -/
def save (sticky : Bool) (e : Ed) : Option Nat :=
  if sticky then (if e.off < e.mem.length then some e.off else e.init) else none

/-- `can_sticky_search_add_history` (lib/src/sticky_search.cpp:102-121). -/
def canAdd (sticky : Bool) (mem : List (Text × Undo)) (init : Option Nat) (line : Text) : Bool :=
  if sticky then
    match init with
    | none => true
    | some p =>
      match mem[p]? with
      | none => true
      | some (l, _) => l ≠ line
  else true

/-- Enter: `rl_module::on_end_line` (rl/rl_module.cpp:2846-2867) and the decision of `host::edit_line` (app/src/host/host.cpp:1229-1249): the
line, whether it is to be added to the history, and the position for the next line. -/
def enter (sticky : Bool) (e : Ed) : Text × Bool × Option Nat :=
  let init := save sticky e
  let add := if e.buf ≠ [] ∧ canAdd sticky (teardown e) init e.buf = false then false else true
  (e.buf, add, if add then none else init)

/-- One line: the history, the position from before and the keys. -/
def line (sticky : Bool) (hist : List Text) (init : Option Nat) (ks : List Key) : Text × Bool × Option Nat :=
  enter sticky (ks.foldl (key sticky) (start hist init))

/-- Several lines with the same history: each line and whether it is to be added. -/
def lines (sticky : Bool) (hist : List Text) : Option Nat → List (List Key) → List (Text × Bool)
  | _, [] => []
  | init, ks :: kss => ((line sticky hist init ks).1, (line sticky hist init ks).2.1) :: lines sticky hist (line sticky hist init ks).2.2 kss

end Clink.Sticky
