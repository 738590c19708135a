/-!
Model of the tasks that Lua scripts run in threads of their own: the task manager, the tasks, and what the scripts do
with them.
Source: clink/lua/src/async_lua_task.cpp, lua/src/internal_api.cpp (path types), lua/src/http_api.cpp (requests),
lua/src/os_api.cpp (shares), lua/scripts/coroutines.lua.

The main thread and the threads of the tasks take turns in any order (sequentially consistent memory); a step has at
most one access to what another thread uses.  Of a Lua state there are the slots of the registry, what is in them, and
for each task the object that is used to wait for it, and the coroutine that waits.
-/

namespace Clink.Tasks

abbrev Path := Nat
abbrev Kind := Nat

/-- The key of a task: of a path type it is the path (lua/src/internal_api.cpp:1214-1215), otherwise a number that is
used only once (lua/src/os_api.cpp:1602-1603, lua/src/http_api.cpp:746-747). -/
inductive Key
  | path (p : Path)
  | num (k : Nat)
  deriving DecidableEq, Repr

/-- What the task is for: a path type, a request from a coroutine, a request from the main coroutine, shares for a
coroutine. -/
inductive What
  | path | request | mainRequest | shares
  deriving DecidableEq, Repr

/-- Where the thread of a task is: `proc`, lua/src/async_lua_task.cpp:318-325, with `detach`, 307-315, and `cancel`,
277-282. -/
inductive Wpc
  | none
  /-- In `do_work`. -/
  | work
  /-- At the end of `do_work`: `wake_asyncyield`. -/
  | last
  /-- `m_is_complete = true`. -/
  | comp
  /-- `m_run_callback = false`. -/
  | can
  /-- `if (m_thread)`. -/
  | tst
  /-- `m_thread->detach()`. -/
  | det
  /-- `m_thread.reset()`. -/
  | rst
  /-- `SetEvent(task->m_event)`. -/
  | sig
  /-- `SetEvent(get_task_manager_event())`. -/
  | evt
  | done
  deriving DecidableEq, Repr

/-- A coroutine that uses a task. -/
inductive Co
  | running | waiting
  /-- It has the result, or does not wait any more. -/
  | over
  deriving DecidableEq, Repr

/-- `async_lua_task`, lua/src/async_lua_task.h:48-90, with its `async_yield_lua`, 21-45. -/
structure Task where
  what : What := .path
  key : Key := .num 0
  /-- `m_callback_ref`: the slot in the registry. -/
  cb : Option Nat := none
  /-- `m_run_callback`. -/
  run : Bool := false
  /-- `m_is_complete`. -/
  complete : Bool := false
  /-- `m_is_canceled`. -/
  canceled : Bool := false
  /-- `m_thread`: null, or whether the thread is not detached yet. -/
  thr : Option Bool := none
  /-- `m_run_until_complete`. -/
  keep : Bool := false
  /-- The event of the task is set. -/
  signalled : Bool := false
  w : Wpc := .none
  /-- `m_type` of a path type. -/
  type : Kind := 0
  /-- The shares found, and how many were fetched. -/
  size : Nat := 0
  index : Nat := 0
  /-- The `async_yield_lua` object has not been collected. -/
  live : Bool := false
  /-- `m_ready`. -/
  ready : Bool := false
  /-- It was made with a timeout. -/
  expires : Bool := false
  co : Co := .over

/-- Who uses a slot in the registry of the Lua state: the callback of a task, or anything else. -/
inductive Owner
  | cb (t : Nat)
  | other (k : Nat)
  deriving DecidableEq, Repr

/-- What has happened. -/
inductive Ev
  /-- A path type was asked for with the callback of a new task. -/
  | added (t : Nat)
  /-- The work of a task is done. -/
  | done (t : Nat)
  /-- The main thread ran the callback of the task; what was in the slot. -/
  | called (t : Nat) (o : Option Owner)
  /-- The slot of the callback was freed; what was in it. -/
  | released (t : Nat) (o : Option Owner)
  /-- The main thread disabled the callback, or cancelled the task. -/
  | disabled (t : Nat)
  /-- The main thread gave up the task at the end of a line, or at the end of the Lua state. -/
  | dropped (t : Nat)
  /-- The callback was left in the Lua state that comes to its end. -/
  | kept (t : Nat)
  /-- The system was asked for the type of a path. -/
  | asked (p : Path) (k : Kind)
  /-- The script got the type of a path. -/
  | answer (p : Path) (k : Kind)
  /-- The object to wait with was set to ready. -/
  | woke (t : Nat)
  /-- The coroutine saw that the work was not done. -/
  | looked (t : Nat)
  /-- The coroutine set the object to not ready, and waits. -/
  | slept (t : Nat)
  /-- The script got the result. -/
  | result (t : Nat)
  /-- The script was told that there are no more shares. -/
  | noMore (t : Nat)
  /-- The main thread, or the thread of the task, has found that there is a thread to detach, and has forgotten it. -/
  | enterM (t : Nat) | leaveM (t : Nat) | enterW (t : Nat) | leaveW (t : Nat)
  deriving DecidableEq, Repr

/-- The loops over the tasks: `on_idle`, `end_line` (whether there was a callback), `shutdown`. -/
inductive Loop
  | idle | line (b : Bool) | shut
  deriving DecidableEq, Repr

/-- Where the main thread is: in no loop, or in one with the tasks `rest` left. -/
inductive Pc
  | free
  /-- Before the next task. -/
  | loop (k : Loop) (rest : List Nat)
  /-- `if (!m_run_callback)`, lua/src/async_lua_task.cpp:249. -/
  | run1 (t : Nat) (rest : List Nat)
  /-- In the callback. -/
  | inCb (t : Nat) (rest : List Nat)
  /-- `m_run_callback = false`, 259. -/
  | run2 (t : Nat) (rest : List Nat)
  /-- `m_run_callback = false`, `if (!m_is_complete)`, `m_is_canceled = true`, 279-281. -/
  | can1 (k : Loop) (t : Nat) (rest : List Nat)
  | can2 (k : Loop) (t : Nat) (rest : List Nat)
  | can3 (k : Loop) (t : Nat) (rest : List Nat)
  /-- `if (m_thread)`, `m_thread->detach()`, `m_thread.reset()`, 310-313. -/
  | det1 (k : Loop) (t : Nat) (rest : List Nat)
  | det2 (k : Loop) (t : Nat) (rest : List Nat)
  | det3 (k : Loop) (t : Nat) (rest : List Nat)
  /-- `take_callback` and `erase`, 107-110, 136-142, 208. -/
  | take (k : Loop) (t : Nat) (rest : List Nat)
  /-- The loop over the callbacks to free, 115-117; here they are removed one by one. -/
  | unref
  deriving DecidableEq, Repr

/-- What the main thread does for a script. -/
inductive Op
  | none
  /-- The thread of the new task exists; `m_thread = …`, lua/src/async_lua_task.cpp:303. -/
  | assign (t : Nat)
  /-- `async_path_type` with the task, lua/src/internal_api.cpp:1235-1247: the wait, the test of `m_is_complete`,
  `disable_callback`, and the answer. -/
  | pWait (t : Nat) | pTest (t : Nat) | pDis (t : Nat) | pAns (t : Nat)
  /-- `wait`, lua/src/http_api.cpp:781-788. -/
  | mWait (t : Nat)
  /-- `cancel`, lua/src/async_lua_task.cpp:279-281. -/
  | can1 (t : Nat) | can2 (t : Nat) | can3 (t : Nat)
  /-- `continuation`, lua/src/http_api.cpp:612-623: the tests of `m_is_canceled` and of `m_is_complete`. -/
  | hCan (t : Nat) | hCom (t : Nat)
  /-- `iter_aux`, lua/src/os_api.cpp:1520: the tests of `m_is_complete` and of `m_is_canceled`. -/
  | sCom (t : Nat) | sCan (t : Nat)
  /-- `clear_ready`, and yielding. -/
  | clr (t : Nat)
  deriving DecidableEq, Repr

/-- What ends the process, or is undefined. -/
inductive Crash
  /-- A thread is detached that is already, or through a null pointer. -/
  | thread (t : Nat)
  /-- The object to wait with is used after it was collected. -/
  | freed (t : Nat)
  deriving DecidableEq, Repr

structure St where
  tasks : Nat → Task := fun _ => {}
  /-- How many tasks there have been. -/
  n : Nat := 0
  /-- `m_map`. -/
  map : List Nat := []
  /-- `m_unref_callbacks`: the tasks, and the slots. -/
  pending : List (Nat × Nat) := []
  /-- The event of the task manager is set. -/
  event : Bool := false
  /-- `m_zombie`. -/
  zombie : Bool := false
  /-- The registry of the Lua state. -/
  reg : Nat → Option Owner := fun _ => none
  /-- `s_cached_path_type`. -/
  cache : Path → Option Kind := fun _ => none
  pc : Pc := .free
  op : Op := .none
  crash : Option Crash := none
  /-- What has happened, the last first. -/
  log : List Ev := []

def upd {α : Type} (f : Nat → α) (i : Nat) (x : α) : Nat → α := fun j => if j = i then x else f j

def St.set (s : St) (t : Nat) (x : Task) : St := { s with tasks := upd s.tasks t x }

/-- The steps; what another step may choose is in it. -/
inductive Act
  /-- Other Lua code takes a free slot of the registry, or gives one back. -/
  | ref (slot k : Nat) | unref (slot : Nat)
  /-- `clink._async_path_type`, the slot for the callback, if there is one. -/
  | path (p : Path) (slot : Option Nat)
  /-- `http.request`, from a coroutine or not; `os.enumshares` from a coroutine.  (So far no task is kept at the end of
  a line.) -/
  | request (keep : Bool) | mainRequest (keep : Bool) | shares (keep expires : Bool)
  /-- The script cancels a task. -/
  | cancel (t : Nat)
  /-- A coroutine goes on; whether the time is over. -/
  | look (t : Nat) (expired : Bool)
  /-- A coroutine is given up, and the object to wait with is collected. -/
  | collect (t : Nat)
  /-- `clear_path_type_cache`. -/
  | clearCache
  /-- The next step of what the main thread does. -/
  | op | loop
  /-- The callback returns; the tasks that are still to be visited. -/
  | ret (rest : List Nat)
  /-- The event of the task manager; the end of a line; the end of the Lua state, or of all.  The order of the tasks. -/
  | idle (order : List Nat) | endLine (order : List Nat) | shutdown (final : Bool) (order : List Nat)
  /-- The Lua state ends, and there is a new one. -/
  | reload
  /-- A step of the thread of a task; the type of the path, if it asks for it. -/
  | work (t : Nat) (k : Kind)
  /-- It finds a share; it wakes the coroutine; it comes to the end. -/
  | found (t : Nat) | wake (t : Nat) | finish (t : Nat)
  deriving DecidableEq, Repr

/-- `find`, lua/src/async_lua_task.cpp:66-76. -/
def find (s : St) (k : Key) : Option Nat :=
  if s.zombie then none else s.map.find? (fun t => decide ((s.tasks t).key = k))

/-- `add`, lua/src/async_lua_task.cpp:79-91, with `start`, 300-304, up to the assignment. -/
def add (s : St) (x : Task) : St :=
  let s' := { s with n := s.n + 1, tasks := upd s.tasks s.n x }
  if s.zombie then s'
  else { s' with map := s.n :: s.map, tasks := upd s.tasks s.n { x with w := .work }, op := .assign s.n }

/-- `async_path_type`, lua/src/internal_api.cpp:1201-1233.  The event of a task that was not started is never set. -/
def pathType (s : St) (p : Path) (slot : Option Nat) : Option St :=
  match s.cache p with
  | some k => some { s with log := .answer p k :: s.log }
  | none =>
    match find s (.path p) with
    | some t => some { s with op := .pWait t }
    | none =>
      match slot with
      | none => some (add s { what := .path, key := .path p })
      | some n =>
        if s.reg n ≠ none then none
        else
          some (add { s with reg := upd s.reg n (some (.cb s.n)), log := .added s.n :: s.log }
            { what := .path, key := .path p, cb := some n, run := true })

/-- A coroutine goes on when it is ready, or when the time is over, lua/scripts/coroutines.lua:221-228, 319:
`continuation`, lua/src/http_api.cpp:582-632, and `iter_aux`, lua/src/os_api.cpp:1484-1539. -/
def look (s : St) (t : Nat) (expired : Bool) : Option St :=
  let x := s.tasks t
  if expired && !x.expires then none
  else if x.co = .over ∨ (x.co = .waiting ∧ x.ready = false ∧ expired = false) then none
  else if x.what = .shares then
    if x.index < x.size then some (s.set t { x with index := x.index + 1, co := .running })
    else if expired then some { s.set t { x with co := .over } with op := .can1 t }
    else some { s with op := .sCom t }
  else if x.what = .request then some { s with op := .hCan t }
  else none

/-- One step of what the main thread does for a script. -/
def opStep (s : St) : Option St :=
  match s.op with
  | .none => none
  | .assign t =>
    let x := s.tasks t
    some { s.set t { x with thr := some true } with op := match x.what with
      | .path => .pWait t | .mainRequest => .mWait t | _ => .none }
  | .pWait t => some { s with op := .pTest t }
  | .pTest t => some { s with op := if (s.tasks t).complete then .pDis t else .none }
  | .pDis t =>
    some { s.set t { s.tasks t with run := false } with op := .pAns t, log := .disabled t :: s.log }
  | .pAns t =>
    let x := s.tasks t
    match x.key with
    | .path p => some { s with op := .none, log := .answer p x.type :: s.log }
    | .num _ => some { s with op := .none }
  | .mWait t => if (s.tasks t).signalled then some { s with op := .none, log := .result t :: s.log } else none
  | .can1 t => some { s.set t { s.tasks t with run := false } with op := .can2 t, log := .disabled t :: s.log }
  | .can2 t => some { s with op := if (s.tasks t).complete then .none else .can3 t }
  | .can3 t => some { s.set t { s.tasks t with canceled := true } with op := .none }
  | .hCan t =>
    let x := s.tasks t
    if x.canceled then some { s.set t { x with co := .over } with op := .none } else some { s with op := .hCom t }
  | .hCom t =>
    let x := s.tasks t
    if x.complete then some { s.set t { x with co := .over } with op := .none, log := .result t :: s.log }
    else some { s with op := .clr t, log := .looked t :: s.log }
  | .sCom t =>
    let x := s.tasks t
    if x.complete then some { s.set t { x with co := .over } with op := .none, log := .noMore t :: s.log }
    else some { s with op := .sCan t, log := .looked t :: s.log }
  | .sCan t =>
    let x := s.tasks t
    if x.canceled then some { s.set t { x with co := .over } with op := .none } else some { s with op := .clr t }
  | .clr t =>
    some { s.set t { s.tasks t with ready := false, co := .waiting } with op := .none, log := .slept t :: s.log }

/-- One step of a loop: `on_idle`, `end_line`, `shutdown`, lua/src/async_lua_task.cpp:94-118, 121-148, 196-211. -/
def loopStep (s : St) : Option St :=
  match s.pc with
  | .free | .inCb .. => none
  | .loop .idle [] => some { s with pc := .unref }
  | .loop (.line b) [] => some { s with pc := .free, event := s.event || b }
  | .loop .shut [] => some { s with pc := .free, map := [] }
  | .loop .idle (t :: rest) =>
    some { s with pc := if (s.tasks t).complete then .run1 t rest else .loop .idle rest }
  | .loop (.line b) (t :: rest) =>
    some { s with pc := if (s.tasks t).keep then .loop (.line b) rest else .can1 (.line b) t rest }
  | .loop .shut (t :: rest) => some { s with pc := .can1 .shut t rest }
  | .run1 t rest =>
    let x := s.tasks t
    if x.run then
      match x.cb with
      | some n => some { s with pc := .inCb t rest, log := .called t (s.reg n) :: s.log }
      | none => some { s with pc := .run2 t rest }
    else some { s with pc := .can1 .idle t rest }
  | .run2 t rest => some { s.set t { s.tasks t with run := false } with pc := .can1 .idle t rest }
  | .can1 k t rest =>
    some { s.set t { s.tasks t with run := false } with
      pc := .can2 k t rest, log := if k = .idle then s.log else .dropped t :: s.log }
  | .can2 k t rest => some { s with pc := if (s.tasks t).complete then .det1 k t rest else .can3 k t rest }
  | .can3 k t rest => some { s.set t { s.tasks t with canceled := true } with pc := .det1 k t rest }
  | .det1 k t rest =>
    if (s.tasks t).thr = none then some { s with pc := .take k t rest }
    else some { s with pc := .det2 k t rest, log := .enterM t :: s.log }
  | .det2 k t rest =>
    if (s.tasks t).thr = some true then
      some { s.set t { s.tasks t with thr := some false } with pc := .det3 k t rest }
    else some { s with crash := some (.thread t) }
  | .det3 k t rest =>
    some { s.set t { s.tasks t with thr := none } with pc := .take k t rest, log := .leaveM t :: s.log }
  | .take k t rest =>
    let x := s.tasks t
    let s' := s.set t { x with cb := none }
    match k with
    | .shut => some { s' with pc := .loop .shut rest, log := if x.cb = none then s.log else .kept t :: s.log }
    | .idle => some { s' with pc := .loop .idle rest, map := s.map.erase t, pending := match x.cb with
        | some n => s.pending ++ [(t, n)]
        | none => s.pending }
    | .line b => some { s' with pc := .loop (.line (b || x.cb.isSome)) rest, map := s.map.erase t, pending := match x.cb with
        | some n => s.pending ++ [(t, n)]
        | none => s.pending }
  | .unref =>
    match s.pending with
    | [] => some { s with pc := .free }
    | (t, n) :: l => some { s with pending := l, reg := upd s.reg n none, log := .released t (s.reg n) :: s.log }

/-- Whether there is an object to wait with. -/
def Task.yields (x : Task) : Bool := x.what = .request || x.what = .shares

/-- `wake_asyncyield`, lua/src/async_lua_task.cpp:285-297; then the thread is at `w`. -/
def wakeStep (s : St) (t : Nat) (w : Wpc) : St :=
  let x := s.tasks t
  if x.yields then
    if x.live then { s.set t { x with ready := true, w := w } with log := .woke t :: s.log }
    else { s with crash := some (.freed t) }
  else s.set t { x with w := w }

/-- One step of `proc`, lua/src/async_lua_task.cpp:318-325. -/
def workStep (s : St) (t : Nat) (k : Kind) : Option St :=
  let x := s.tasks t
  match x.w with
  | .none | .done => none
  | .work =>
    match x.what, x.key with
    | .path, .path p =>
      some { s.set t { x with type := k, w := .comp } with
        log := .asked p k :: s.log, cache := if s.cache p = none then upd s.cache p (some k) else s.cache }
    | _, _ => none
  | .last => some (wakeStep s t .comp)
  | .comp => some { s.set t { x with complete := true, w := .can } with log := .done t :: s.log }
  | .can => some (s.set t { x with run := false, w := .tst })
  | .tst =>
    if x.thr = none then some (s.set t { x with w := .sig })
    else some { s.set t { x with w := .det } with log := .enterW t :: s.log }
  | .det =>
    if x.thr = some true then some (s.set t { x with thr := some false, w := .rst })
    else some { s with crash := some (.thread t) }
  | .rst => some { s.set t { x with thr := none, w := .sig } with log := .leaveW t :: s.log }
  | .sig => some (s.set t { x with signalled := true, w := .evt })
  | .evt => some { s.set t { x with w := .done } with event := true }

/-- Scripts run. -/
def inLua (s : St) : Bool := s.op = .none && (match s.pc with | .free | .inCb .. => true | _ => false)

/-- In no loop. -/
def atTop (s : St) : Bool := s.op = .none && s.pc = .free

/-- A request, lua/src/http_api.cpp:757-807: the coroutine waits at once. -/
def newRequest (n : Nat) (keep : Bool) : Task := { what := .request, key := .num n, keep := keep, live := true, co := .waiting }

/-- One step. -/
def step (s : St) (a : Act) : Option St :=
  if s.crash ≠ none then none
  else match a with
  | .ref slot k =>
    if inLua s ∧ s.reg slot = none then some { s with reg := upd s.reg slot (some (.other k)) } else none
  | .unref slot =>
    match s.reg slot with
    | some (.other _) => if inLua s then some { s with reg := upd s.reg slot none } else none
    | _ => none
  | .path p slot => if inLua s then pathType s p slot else none
  | .request keep => if inLua s then some (add s (newRequest s.n keep)) else none
  | .mainRequest keep => if inLua s then some (add s { what := .mainRequest, key := .num s.n, keep := keep }) else none
  | .shares keep e =>
    if inLua s then
      some (add s { what := .shares, key := .num s.n, keep := keep, live := true, expires := e, co := .running })
    else none
  | .cancel t => if inLua s ∧ t < s.n then some { s with op := .can1 t } else none
  | .look t e => if inLua s then look s t e else none
  | .collect t => if inLua s then some (s.set t { s.tasks t with live := false, co := .over }) else none
  | .clearCache => if inLua s then some { s with cache := fun _ => none } else none
  | .op => opStep s
  | .loop => loopStep s
  | .ret rest' =>
    match s.pc with
    | .inCb t rest =>
      if s.op = .none ∧ rest'.Nodup ∧ t ∉ rest' ∧ (∀ u ∈ rest, u ∈ rest') ∧ (∀ u ∈ rest', u ∈ s.map) then
        some { s with pc := .run2 t rest' }
      else none
    | _ => none
  | .idle order =>
    if atTop s ∧ s.event = true ∧ order.isPerm s.map then some { s with event := false, pc := .loop .idle order } else none
  | .endLine order => if atTop s ∧ order.isPerm s.map then some { s with pc := .loop (.line false) order } else none
  | .shutdown final order =>
    if atTop s ∧ order.isPerm s.map then
      if s.zombie then some s else some { s with zombie := final, pc := .loop .shut order }
    else none
  | .reload =>
    if atTop s ∧ s.map = [] then
      some { s with reg := fun _ => none, tasks := fun t => { s.tasks t with live := false, co := .over } }
    else none
  | .work t k => workStep s t k
  | .found t =>
    let x := s.tasks t
    if x.w = .work ∧ x.what = .shares then some (s.set t { x with size := x.size + 1 }) else none
  | .wake t => if (s.tasks t).w = .work ∧ (s.tasks t).what ≠ .path then some (wakeStep s t .work) else none
  | .finish t =>
    let x := s.tasks t
    if x.w = .work ∧ x.what ≠ .path then some (s.set t { x with w := .last }) else none

/-- The steps one after the other. -/
def steps (s : St) : List Act → Option St
  | [] => some s
  | a :: l => match step s a with
    | some s' => steps s' l
    | none => none

end Clink.Tasks
