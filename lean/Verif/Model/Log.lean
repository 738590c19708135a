/-! Model of the logger with deferred messages and groups (clink/core/src/log.cpp).

Messages are as after `vformat`.  What `file_logger::emit_impl` writes for a message is not modelled: `out` is the list of its calls.  The
assertions are left out, as in a release build.  There is a logger all the time, and one thread. -/

namespace Clink.Log

abbrev Text := List Nat

structure Msg where
  func : Text
  line : Int
  text : Text
deriving Repr, DecidableEq

/-- `m_grouping`, `m_deferred` and `m_can_defer`, core/include/core/log.h:47-49; `out` are the calls of `emit_impl`. -/
structure State where
  grouping : Int := 0
  deferred : List Msg := []
  canDefer : Bool := true
  out : List Msg := []
deriving Repr, DecidableEq

/-- `logger::emit`, core/src/log.cpp:95-112. -/
def emit (s : State) (m : Msg) : State :=
  if s.grouping ≤ 0 then { s with out := s.out ++ [m] } else { s with deferred := s.deferred ++ [m] }

/-- `logger::emit_deferred`, core/src/log.cpp:115-127. -/
def emitDeferred (s : State) : State :=
  let s := if s.grouping ≤ 0 ∧ s.deferred ≠ [] then { s with out := s.out ++ s.deferred, deferred := [] } else s
  if s.canDefer then { s with canDefer := false } else s

/-- `logger::info`, core/src/log.cpp:24-36. -/
def info (s : State) (m : Msg) : State := emit (emitDeferred s) m

/-- How the number of an error is shown: as a signed number, or in hexadecimal. -/
inductive Code
  | signed (n : Int)
  | hex (n : Nat)
deriving Repr, DecidableEq

/-- The choice, core/src/log.cpp:52; `last_error` is a `DWORD`, so it is never negative. -/
def codeOf (e : Nat) : Code :=
  if e ≥ 0 ∨ e / 65536 = 65535 then .signed (if e < 2147483648 then e else (e : Int) - 4294967296) else .hex e

/-- `logger::error`, core/src/log.cpp:39-63: the number with the text `num`, the message, and the text of the system, if there is one. -/
def error (num : Code → Text) (s : State) (m : Msg) (e : Nat) (detail : Option Text) : State :=
  let s := emitDeferred s
  let s := info s { m with text := num (codeOf e) }
  let s := emit s m
  match detail with
  | some t => info s { m with text := t }
  | none => s

/-- `logger::defer_info`, core/src/log.cpp:73-92. -/
def deferInfo (s : State) (m : Msg) : State :=
  if s.canDefer then { s with deferred := s.deferred ++ [m] } else info s m

/-- `logger::begin_group`, core/src/log.cpp:130-138: the state and the index. -/
def beginGroup (s : State) : State × Nat := ({ s with grouping := s.grouping + 1 }, s.deferred.length)

/-- `logger::end_group`, core/src/log.cpp:141-160. -/
def endGroup (s : State) (rollback : Nat) (discard : Bool) : State :=
  let s := { s with grouping := s.grouping - 1 }
  if rollback ≤ s.deferred.length then
    let (s, discard) :=
      if !discard && s.grouping ≤ 0 then ({ s with out := s.out ++ s.deferred.drop rollback }, true) else (s, discard)
    if discard then { s with deferred := s.deferred.take rollback } else s
  else s

/-- An object of `logging_group`: `m_grouping` and `m_rollback_index`. -/
structure Group where
  grouping : Bool
  rollback : Nat
deriving Repr, DecidableEq

/-- `logging_group::logging_group`, core/src/log.cpp:204-216. -/
def Group.open (s : State) (verbose : Bool) : State × Group :=
  if verbose then (s, ⟨false, 0⟩)
  else let (s, i) := beginGroup s; (s, ⟨true, i⟩)

/-- `logging_group::close`, core/src/log.cpp:225-238. -/
def Group.close (g : Group) (s : State) (discard : Bool) : State × Group :=
  if !g.grouping then (s, g) else (endGroup s g.rollback discard, { g with grouping := false })

/-- Code that logs, with groups in nested scopes: `group verbose body discard` opens a group, does the body, closes the group (with
`discard` or without) and then the destructor closes it again (`logging_group::~logging_group`, core/src/log.cpp:219-222). -/
inductive Prog
  | done
  | log (m : Msg) (rest : Prog)
  | err (m : Msg) (code : Nat) (detail : Option Text) (rest : Prog)
  | defer (m : Msg) (rest : Prog)
  | group (verbose : Bool) (body : Prog) (discard : Bool) (rest : Prog)

def run (num : Code → Text) : Prog → State → State
  | .done, s => s
  | .log m p, s => run num p (info s m)
  | .err m e d p, s => run num p (error num s m e d)
  | .defer m p, s => run num p (deferInfo s m)
  | .group v b d p, s =>
    let (s, g) := Group.open s v
    let s := run num b s
    let (s, g) := g.close s d
    let (s, _) := g.close s false
    run num p s

end Clink.Log
