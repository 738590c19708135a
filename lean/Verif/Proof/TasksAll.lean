import Verif.Proof.TasksReg
import Verif.Proof.TasksEvent
import Verif.Proof.TasksThread
import Verif.Proof.TasksWait

namespace Clink.Tasks

open Spec

/-- All together. -/
structure Inv (s : St) : Prop where
  base : Base s
  calls : Calls s
  order : Order s
  path : PathOk s
  told : Told s
  runs : Runs s
  kept : Kept s
  threads : Threads s
  waits : Waits s

theorem Inv.start : Inv {} := by
  refine ⟨?_, ?_, ?_, ?_, ?_, ?_, ?_, ?_, ?_⟩ <;> constructor <;>
    simp [after_nil, notAfter_nil, Pc.cur, Pc.left, Pc.idleCur, Op.task, Op.seen, Op.clrs, Op.looks, Op.cans, Wpc.told,
      Wpc.worked, Wpc.woken, Pc.given, Pc.flag, Pc.idles, Pc.can3s, prompted_nil, insideM, insideW, Pc.det2s, Pc.det3s,
      Pc.shuts, Pc.lua, Task.yields]

theorem Inv.next {s s' : St} {a : Act} (H : Inv s) (h : step s a = some s') : Inv s' where
  base := H.base.next h
  calls := H.calls.next H.base h
  order := H.order.next H.base H.calls h
  path := H.path.next H.base h
  told := H.told.next H.base H.calls H.path h
  runs := H.runs.next H.base H.calls H.path h
  kept := H.kept.next H.base H.calls H.path H.runs h
  threads := H.threads.next H.base h
  waits := H.waits.next H.base H.path h

theorem Spec.Reach.inv {ok : St → Act → Prop} {s : St} (h : Reach ok s) : Inv s := by
  induction h with
  | start => exact Inv.start
  | next _ _ h ih => exact ih.next h

theorem Spec.Reach.reg {s : St} (h : Reach Calm s) : RegOk s := by
  induction h with
  | start => constructor <;> simp
  | next hr hc h ih => exact ih.next hr.inv.base hr.inv.calls hc h

theorem Inv.steps {s s' : St} {l : List Act} (H : Inv s) (h : steps s l = some s') : Inv s' := by
  induction l generalizing s with
  | nil => simp [Tasks.steps] at h; exact h ▸ H
  | cons a l ih =>
    simp only [Tasks.steps] at h
    split at h
    · rename_i s1 h1; exact ih (H.next h1) h
    · simp at h

theorem Stays.steps {s s' : St} {l : List Act} {t : Nat} {b c : Prop} (H : Inv s) (S : Stays t b c s)
    (h : steps s l = some s') : Stays t b c s' := by
  induction l generalizing s with
  | nil => simp [Tasks.steps] at h; exact h ▸ S
  | cons a l ih =>
    simp only [Tasks.steps] at h
    split at h
    · rename_i s1 h1; exact ih (H.next h1) (S.next H.waits h1) h
    · simp at h

/-- The callback is off. -/
structure Off (t : Nat) (b : Option Owner → Prop) (s : St) : Prop where
  lt : t < s.n
  run : (s.tasks t).run = false
  called : ∀ o, .called t o ∈ s.log ↔ b o

set_option maxHeartbeats 4000000 in
theorem Off.next {s s' : St} {a : Act} {t : Nat} {b : Option Owner → Prop} (H : Off t b s) (h : step s a = some s') :
    Off t b s' := by
  obtain ⟨h1, h2, h3⟩ := H
  step_cases h
  all_goals constructor
  all_goals first | assumption | grind [upd]

theorem Off.steps {s s' : St} {l : List Act} {t : Nat} {b : Option Owner → Prop} (S : Off t b s) (h : steps s l = some s') :
    Off t b s' := by
  induction l generalizing s with
  | nil => simp [Tasks.steps] at h; exact h ▸ S
  | cons a l ih =>
    simp only [Tasks.steps] at h
    split at h
    · rename_i s1 h1; exact ih (S.next h1) h
    · simp at h

/-- The objects to wait with. -/
structure Live (s : St) : Prop where
  live : ∀ t, (s.tasks t).w ≠ .none → (s.tasks t).yields = true → (s.tasks t).live = true
  crash : ∀ t, s.crash ≠ some (.freed t)

set_option maxHeartbeats 4000000 in
theorem Live.next {s s' : St} {a : Act} (B : Base s) (H : Live s) (hc : Keeps s a) (h : step s a = some s') : Live s' := by
  have b5 := B.fresh
  clear B
  unfold Keeps at hc
  obtain ⟨h1, h2⟩ := H
  step_cases h
  all_goals constructor
  all_goals first | assumption | grind [upd, Task.yields]

theorem Spec.Reach.live {s : St} (h : Reach Keeps s) : Live s := by
  induction h with
  | start => constructor <;> simp
  | next hr hc h ih => exact ih.next hr.inv.base hc h

theorem Spec.Reach.steps {ok : St → Act → Prop} {s s' : St} {l : List Act} (hok : ∀ a ∈ l, ∀ s, ok s a) (H : Reach ok s)
    (h : steps s l = some s') : Reach ok s' := by
  induction l generalizing s with
  | nil => simp [Tasks.steps] at h; exact h ▸ H
  | cons a l ih =>
    simp only [Tasks.steps] at h
    split at h
    · rename_i s1 h1; exact ih (fun b hb => hok b (by simp [hb])) (.next H (hok a (by simp) s) h1) h
    · simp at h

end Clink.Tasks
