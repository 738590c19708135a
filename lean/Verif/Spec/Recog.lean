import Verif.Model.Recog

/-! Executions of the recognizer, and what is said about their events. -/

namespace Clink.Recog.Spec

/-- Executions from the start, with the events in order. -/
inductive Run (s0 : State) : List Ev → State → Prop
  | nil : Run s0 [] s0
  | snoc {tr : List Ev} {s s' : State} {e : Ev} (h : Run s0 tr s) (hs : Step s e s') : Run s0 (tr ++ [e]) s'

/-- The start: the ready event exists and is not signalled, or it could not be created. -/
def Start (s : State) : Prop := s = .start (.opened false) ∨ s = .start .absent

/-- Steps of the worker alone. -/
inductive Works : State → List Ev → State → Prop
  | nil (s : State) : Works s [] s
  | cons {s s1 s2 : State} {e : Ev} {tr : List Ev} (h : WorkerStep s e s1) (hr : Works s1 tr s2) : Works s (e :: tr) s2

/-- The worker cannot go on. -/
def Stopped (s : State) : Prop := ∀ e s', ¬ WorkerStep s e s'

/-- All answers are declared to be out of date. -/
def invalidates : Ev → Bool
  | .invalidate => true
  | .shutdown => true
  | _ => false

/-- A result for a key is stored. -/
def answers (k : List Nat) : Ev → Bool
  | .answer q _ _ => q.key == k
  | _ => false

def isRequest : Ev → Bool
  | .request _ => true
  | _ => false

def isTake : Ev → Bool
  | .take _ => true
  | _ => false

/-- The worker is done with a search. -/
def finishes : Ev → Bool
  | .answer _ _ _ => true
  | .dropped _ => true
  | _ => false

/-- Events of the worker, and of a thread that waits for it. -/
def waits : Ev → Bool
  | .request _ => false
  | .refused _ => false
  | .invalidate => false
  | .refresh _ => false
  | .shutdown => false
  | .joined => false
  | _ => true

/-- The history of an answer: it was requested, taken by the worker and found, in this order.  Between request and taking
nothing was invalidated or requested; the worker searched for nothing else; since then nothing was invalidated and there was
no newer answer to the same key.  `between` are the events during the search. -/
def History (tr : List Ev) (q : Request) (recog : Recognition) (file : List Nat) (between : List Ev) : Prop :=
  ∃ a b d, tr = a ++ .request q :: b ++ .take q :: between ++ .answer q recog file :: d ∧
    (∀ e ∈ b, invalidates e = false ∧ isRequest e = false ∧ isTake e = false) ∧ (∀ e ∈ between, isTake e = false ∧ finishes e = false) ∧
    ∀ e ∈ d, invalidates e = false ∧ answers q.key e = false

/-- Nothing is invalidated while the worker searches. -/
def NoRace (tr : List Ev) : Prop :=
  ∀ (a : List Ev) (q : Request) (b c : List Ev) (e : Ev), tr = a ++ .take q :: b ++ e :: c → invalidates e = true → ∃ f ∈ b, finishes f = true

end Clink.Recog.Spec
