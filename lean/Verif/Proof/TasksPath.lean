import Verif.Proof.TasksLog

namespace Clink.Tasks

open Spec

/-- The thread has done the work. -/
@[grind =] def Wpc.worked : Wpc → Bool
  | .none => false | .work => false | .last => false | .comp => true | .can => true | .tst => true | .det => true
  | .rst => true | .sig => true | .evt => true | .done => true

/-- It has said so. -/
@[grind =] def Wpc.told : Wpc → Bool
  | .none => false | .work => false | .last => false | .comp => false | .can => true | .tst => true | .det => true
  | .rst => true | .sig => true | .evt => true | .done => true

/-- The main thread has seen that the work is done. -/
@[grind =] def Op.seen : Op → Option Nat
  | .none => Option.none | .assign _ => Option.none | .pWait _ => Option.none | .pTest _ => Option.none | .pDis t => some t
  | .pAns t => some t | .mWait _ => Option.none | .can1 _ => Option.none | .can2 _ => Option.none | .can3 _ => Option.none
  | .hCan _ => Option.none | .hCom _ => Option.none | .sCom _ => Option.none | .sCan _ => Option.none | .clr _ => Option.none

/-- What is known about paths, and what is done. -/
structure PathOk (s : St) : Prop where
  cache : ∀ p k, s.cache p = some k → .asked p k ∈ s.log
  type : ∀ t p, (s.tasks t).key = .path p → (s.tasks t).w.worked = true → .asked p (s.tasks t).type ∈ s.log
  what : ∀ t p, (s.tasks t).key = .path p → (s.tasks t).what = .path
  last : ∀ t, (s.tasks t).w = .last → (s.tasks t).what ≠ .path
  comp : ∀ t, (s.tasks t).complete = (s.tasks t).w.told
  seen : ∀ t, s.op.seen = some t → (s.tasks t).complete = true
  sig : ∀ t, (s.tasks t).signalled = true → (s.tasks t).complete = true

set_option maxHeartbeats 4000000 in
theorem PathOk.next {s s' : St} {a : Act} (B : Base s) (H : PathOk s) (h : step s a = some s') : PathOk s' := by
  have b4 := B.op
  have b5 := B.fresh
  clear B
  obtain ⟨h1, h2, h3, h7, h4, h5, h6⟩ := H
  step_cases h
  all_goals constructor
  all_goals first | assumption | grind [upd]

/-- What scripts are told after what. -/
structure Told (s : St) : Prop where
  answer : ∀ p k, After s.log (.answer p k) (.asked p k)
  result : ∀ t, After s.log (.result t) (.done t)
  noMore : ∀ t, After s.log (.noMore t) (.done t)
  done : ∀ t, .done t ∈ s.log → (s.tasks t).complete = true ∧ t < s.n
  looked : ∀ t, NotAfter s.log (.looked t) (.done t)
  once : ∀ t, NotAfter s.log (.done t) (.done t)

set_option maxHeartbeats 4000000 in
theorem Told.next {s s' : St} {a : Act} (B : Base s) (C : Calls s) (P : PathOk s) (H : Told s) (h : step s a = some s') : Told s' := by
  have b4 := B.op
  have b5 := B.fresh
  have c1 := C.done
  obtain ⟨p1, p2, p3, p7, p4, p5, p6⟩ := P
  have p8 : ∀ t p, s.op.seen = some t → (s.tasks t).key = .path p → .asked p (s.tasks t).type ∈ s.log := by
    intro t p hs hk
    refine p2 t p hk ?_
    have := p5 t hs
    rw [p4 t] at this
    cases hw : (s.tasks t).w <;> simp_all [Wpc.told, Wpc.worked]
  clear B C p2 p7
  obtain ⟨h1, h2, h3, h4, h5, h6⟩ := H
  step_cases h
  all_goals constructor
  all_goals first | assumption | grind [upd]

end Clink.Tasks
