import Mathlib.Data.Nat.Notation

/-!
Model of the background recognizer.
Source: clink/lib/src/recognizer.cpp.

There are two threads: the one that edits the line, and the worker.  Each function here is a part of the code that runs under
`m_mutex`, or a single access to a shared variable.  `busy` in `wait_while_busy` reads without the lock; it is taken to be one
access.  Memory and threads can be allocated.  The maps are lists with one entry for each key.  Keys that are not freed
(`m_pending.clear()`) are not modelled.
-/

namespace Clink.Recog

/-- lib/include/lib/recognizer.h:11. -/
inductive Recognition where
  | unrecognized
  | unknown
  | executable
  | navigate
  deriving DecidableEq, Repr

/-- `cache_entry`, lib/src/recognizer.cpp:85-92; the key is in the map. -/
structure Cached where
  file : List Nat
  age : Int
  recog : Recognition
  outofdate : Bool
  deriving DecidableEq, Repr

/-- `entry`, lib/src/recognizer.cpp:94-102. -/
structure Request where
  key : List Nat
  word : List Nat
  cwd : List Nat
  deriving DecidableEq, Repr

/-- An event handle. -/
inductive Event where
  | absent
  | opened (signalled : Bool)
  | closed
  deriving DecidableEq, Repr

def Event.set : Event → Event
  | .opened _ => .opened true
  | e => e

def Event.reset : Event → Event
  | .opened _ => .opened false
  | e => e

abbrev Map := List (List Nat × Cached)

/-- `emplace`, `insert_or_assign`. -/
def Map.put (m : Map) (k : List Nat) (c : Cached) : Map := (k, c) :: m.filter fun x => decide (x.1 ≠ k)

/-- `recognizer`, lib/src/recognizer.cpp:128-140.  `ready` is `s_ready_event`; the key of `queue` is empty if there is no
entry. -/
structure Rz where
  cache : Map := []
  pending : Map := []
  queue : Request := ⟨[], [], []⟩
  event : Event := .absent
  processing : Bool := false
  available : Bool := false
  zombie : Bool := false
  ready : Event := .opened false
  deriving DecidableEq, Repr

/-- `usable`, lib/src/recognizer.cpp:352-355. -/
def Rz.usable (r : Rz) : Bool := !r.zombie && decide (r.ready ≠ .absent)

/-- `busy`, lib/src/recognizer.cpp:358-361. -/
def Rz.busy (r : Rz) : Bool := r.processing || !r.pending.isEmpty

/-- `clear`, lib/src/recognizer.cpp:168-203.  `now` is `time(nullptr)`. -/
def Rz.clear (r : Rz) (now : Int) : Rz :=
  { r with
    queue := ⟨[], [], []⟩
    pending := []
    cache := (r.cache.filter fun x => decide (¬ x.2.age < now - 3600)).map fun x => (x.1, { x.2 with outofdate := true }) }

/-- `find`, lib/src/recognizer.cpp:206-243: the result, `cached`, and what is assigned to `file`. -/
def Rz.find (r : Rz) (key : List Nat) : Int × Recognition × Option (List Nat) :=
  if r.usable then
    match r.cache.lookup key with
    | some c =>
      if !c.outofdate then (1, c.recog, some c.file)
      else
        match r.pending.lookup key with
        | some p => (-1, p.recog, some p.file)
        | none => (0, c.recog, some c.file)
    | none =>
      match r.pending.lookup key with
      | some p => (-1, p.recog, some p.file)
      | none => (0, .unrecognized, none)
  else (0, .unrecognized, none)

/-- `set_result_available`, lib/src/recognizer.cpp:420-439. -/
def Rz.setAvailable (r : Rz) (available : Bool) : Rz × Bool :=
  let changing := available != r.available
  let ready := if !available then r.ready.reset else if changing then r.ready.set else r.ready
  ({ r with available := available, ready := ready }, r.available)

/-- `store`, lib/src/recognizer.cpp:364-404. -/
def Rz.store (r : Rz) (word file : List Nat) (recog : Recognition) (now : Int) (pending : Bool) : Rz × Bool :=
  if word = [] then (r, false)
  else if !r.usable then (r, false)
  else
    let c : Cached := ⟨file, now, recog, false⟩
    let r := if pending then { r with pending := r.pending.put word c } else { r with cache := r.cache.put word c }
    ((r.setAvailable true).1, true)

/-- `enqueue`, lib/src/recognizer.cpp:246-289, without the thread.  `ok` says that `CreateEvent` succeeds. -/
def Rz.enqueue (r : Rz) (q : Request) (hint : Recognition) (now : Int) (ok : Bool) : Rz × Bool :=
  if q.key = [] ∨ q.word = [] then (r, false)
  else if !r.usable then (r, false)
  else if r.event = .absent ∧ ok = false then (r, false)
  else
    let r := if r.event = .absent then { r with event := .opened false } else r
    let r := ({ r with queue := q }.store q.key [] hint now true).1
    ({ r with event := r.event.set }, true)

/-- `dequeue`, lib/src/recognizer.cpp:407-417. -/
def Rz.dequeue (r : Rz) : Option (Rz × Request) :=
  if !r.usable || r.queue.key.isEmpty then none else some ({ r with queue := ⟨[], [], []⟩ }, r.queue)

/-- `notify_ready`, lib/src/recognizer.cpp:442-454. -/
def Rz.notify (r : Rz) (available : Bool) : Rz :=
  let r := if available then (r.setAvailable true).1 else r
  { r with ready := r.ready.set }

/-- The locked part of `shutdown`, lib/src/recognizer.cpp:461-471.  `none` if it uses a closed handle. -/
def Rz.shutdown (r : Rz) (now : Int) : Option Rz :=
  if r.event = .closed then none
  else
    let r := r.clear now
    some { r with zombie := true, event := r.event.set }

/-- `CloseHandle`, lib/src/recognizer.cpp:476-477.  `m_event` is not changed: it still has the handle. -/
def Rz.close (r : Rz) : Rz := if r.event = .absent then r else { r with event := .closed }

/-- The start of the inner loop of `proc`, lib/src/recognizer.cpp:662-673: `none` leaves the loop. -/
def Rz.take (r : Rz) : Rz × Option Request :=
  match (if r.zombie then none else r.dequeue) with
  | none =>
    let r := { r with processing := false, pending := [] }
    (if !r.zombie then r.notify false else r, none)
  | some (r, q) => ({ r with processing := true }, some q)

/-- Where the worker is in `proc`, lib/src/recognizer.cpp:647-689. -/
inductive Pc where
  | absent
  | waiting
  | looping
  | searching (q : Request)
  | notifying
  | checking
  | ended
  deriving DecidableEq, Repr

/-- Where the other thread is: not in one of the functions; in `wait_while_busy` (lib/src/recognizer.cpp:292-299) before
`busy()` or in `WaitForSingleObject`; or in `thread->join()`. -/
inductive Main where
  | free
  | polling
  | blocked
  | joining
  deriving DecidableEq, Repr

structure State where
  r : Rz
  pc : Pc
  main : Main
  deriving DecidableEq, Repr

/-- What a step is. -/
inductive Ev where
  /- the thread that edits the line -/
  | request (q : Request)
  | refused (q : Request)
  | invalidate
  | refresh (available : Bool)
  | waitBegin
  | waitBusy
  | waitReady
  | waitEnd
  | shutdown
  | joined
  /- the worker -/
  | wake
  | spurious
  | take (q : Request)
  | idle
  | answer (q : Request) (recog : Recognition) (file : List Nat)
  | dropped (q : Request)
  | notify
  | check
  deriving DecidableEq, Repr

/-- The steps of the thread that edits the line. -/
inductive MainStep : State → Ev → State → Prop
  | enqueue (r : Rz) (pc : Pc) (q : Request) (hint : Recognition) (now : Int) (ok : Bool) (r' : Rz) (h : r.enqueue q hint now ok = (r', true)) :
      MainStep ⟨r, pc, .free⟩ (.request q) ⟨r', if pc = .absent then .waiting else pc, .free⟩
  | refused (r : Rz) (pc : Pc) (q : Request) (hint : Recognition) (now : Int) (ok : Bool) (r' : Rz) (h : r.enqueue q hint now ok = (r', false)) :
      MainStep ⟨r, pc, .free⟩ (.refused q) ⟨r', pc, .free⟩
  | clear (r : Rz) (pc : Pc) (now : Int) : MainStep ⟨r, pc, .free⟩ .invalidate ⟨r.clear now, pc, .free⟩
  | refresh (r : Rz) (pc : Pc) : MainStep ⟨r, pc, .free⟩ (.refresh (r.setAvailable false).2) ⟨(r.setAvailable false).1, pc, .free⟩
  | waitBegin (r : Rz) (pc : Pc) (h : r.usable = true) : MainStep ⟨r, pc, .free⟩ .waitBegin ⟨r, pc, .polling⟩
  | waitBusy (r : Rz) (pc : Pc) (h : r.busy = true) : MainStep ⟨r, pc, .polling⟩ .waitBusy ⟨r, pc, .blocked⟩
  | waitReady (r : Rz) (pc : Pc) (h : r.ready = .opened true) : MainStep ⟨r, pc, .blocked⟩ .waitReady ⟨r, pc, .polling⟩
  | waitEnd (r : Rz) (pc : Pc) (h : r.busy = false) : MainStep ⟨r, pc, .polling⟩ .waitEnd ⟨r, pc, .free⟩
  /- `shutdown` is called once. -/
  | shutdown (r : Rz) (pc : Pc) (now : Int) (r' : Rz) (hz : r.zombie = false) (h : r.shutdown now = some r') : MainStep ⟨r, pc, .free⟩ .shutdown ⟨r', pc, .joining⟩
  | joined (r : Rz) (pc : Pc) (h : pc = .absent ∨ pc = .ended) : MainStep ⟨r, pc, .joining⟩ .joined ⟨r.close, pc, .free⟩

/-- The steps of the worker.  The search can have any result. -/
inductive WorkerStep : State → Ev → State → Prop
  | wake (r : Rz) (m : Main) (h : r.event = .opened true) : WorkerStep ⟨r, .waiting, m⟩ .wake ⟨{ r with event := .opened false }, .looping, m⟩
  | take (r : Rz) (m : Main) (r' : Rz) (q : Request) (h : r.take = (r', some q)) : WorkerStep ⟨r, .looping, m⟩ (.take q) ⟨r', .searching q, m⟩
  | idle (r : Rz) (m : Main) (r' : Rz) (h : r.take = (r', none)) : WorkerStep ⟨r, .looping, m⟩ .idle ⟨r', .checking, m⟩
  | answer (r : Rz) (m : Main) (q : Request) (recog : Recognition) (file : List Nat) (now : Int) (r' : Rz) (h : r.store q.key file recog now false = (r', true)) :
      WorkerStep ⟨r, .searching q, m⟩ (.answer q recog file) ⟨r', .notifying, m⟩
  | dropped (r : Rz) (m : Main) (q : Request) (recog : Recognition) (file : List Nat) (now : Int) (r' : Rz) (h : r.store q.key file recog now false = (r', false)) :
      WorkerStep ⟨r, .searching q, m⟩ (.dropped q) ⟨r', .notifying, m⟩
  | notify (r : Rz) (m : Main) : WorkerStep ⟨r, .notifying, m⟩ .notify ⟨r.notify true, .looping, m⟩
  | check (r : Rz) (m : Main) : WorkerStep ⟨r, .checking, m⟩ .check ⟨r, if r.zombie then .ended else .waiting, m⟩

/-- A step of one of the threads.  `WaitForSingleObject` can fail in the worker, lib/src/recognizer.cpp:653-657. -/
inductive Step : State → Ev → State → Prop
  | main {s : State} {e : Ev} {s' : State} (h : MainStep s e s') : Step s e s'
  | worker {s : State} {e : Ev} {s' : State} (h : WorkerStep s e s') : Step s e s'
  | spurious (r : Rz) (m : Main) : Step ⟨r, .waiting, m⟩ .spurious ⟨r, .looping, m⟩

/-- At the start; `ready` is absent if the event could not be created. -/
def State.start (ready : Event) : State := ⟨{ ready := ready }, .absent, .free⟩

end Clink.Recog
