import Verif.Model.Tasks

/-!
What is expected of the tasks of Lua scripts, in terms of what happens one after the other.
-/

namespace Clink.Tasks.Spec

/-- What can be reached from the start, with steps as in `ok`. -/
inductive Reach (ok : St → Act → Prop) : St → Prop
  | start : Reach ok {}
  | next {s a s'} : Reach ok s → ok s a → step s a = some s' → Reach ok s'

/-- Any steps. -/
def Any : St → Act → Prop := fun _ _ => True

/-- There is no new Lua state while callbacks of the old one are still to be freed. -/
def Calm (s : St) (a : Act) : Prop := a = .reload → s.pending = []

/-- Nothing that a coroutine waits with is collected, and there is no new Lua state. -/
def Keeps (_ : St) (a : Act) : Prop := (∀ t, a ≠ .collect t) ∧ a ≠ .reload

/-- `a` happens only after `b`; the last is first in the log. -/
def After (log : List Ev) (a b : Ev) : Prop := ∀ l l', log = l ++ a :: l' → b ∈ l'

/-- `a` does not happen after `b`. -/
def NotAfter (log : List Ev) (a b : Ev) : Prop := ∀ l l', log = l ++ a :: l' → b ∉ l'

/-- Whether, in the end, the main thread (the thread of the task) is between finding that there is a thread to detach and
forgetting it. -/
def insideM (t : Nat) : List Ev → Bool
  | [] => false
  | .enterM u :: l => if u = t then true else insideM t l
  | .leaveM u :: l => if u = t then false else insideM t l
  | _ :: l => insideM t l

def insideW (t : Nat) : List Ev → Bool
  | [] => false
  | .enterW u :: l => if u = t then true else insideW t l
  | .leaveW u :: l => if u = t then false else insideW t l
  | _ :: l => insideW t l

/-- Both were there at the same time. -/
def Overlap (t : Nat) (log : List Ev) : Prop := ∃ l l', log = l ++ l' ∧ insideM t l' = true ∧ insideW t l' = true

/-- The last that happened to the object to wait with is that the coroutine set it to not ready, after it had looked. -/
def SleptLast (t : Nat) (log : List Ev) : Prop :=
  ∃ l l', log = l ++ .slept t :: l' ∧ .woke t ∉ l ∧ .woke t ∈ l' ∧ .looked t ∈ l'

/-- The thread of the task is through with the work and all that follows for the script. -/
def Wpc.ended : Wpc → Bool
  | .can | .tst | .det | .rst | .sig | .evt | .done => true
  | _ => false

end Clink.Tasks.Spec
