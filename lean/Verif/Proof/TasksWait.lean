import Verif.Proof.TasksPath

namespace Clink.Tasks

open Spec

/-- The thread is past the last wake. -/
@[grind =] def Wpc.woken : Wpc → Bool
  | .none => false | .work => false | .last => false | .comp => true | .can => true | .tst => true | .det => true
  | .rst => true | .sig => true | .evt => true | .done => true

/-- The coroutine looks whether the work is done. -/
@[grind =] def Op.clrs : Op → Option Nat
  | .none => Option.none | .assign _ => Option.none | .pWait _ => Option.none | .pTest _ => Option.none | .pDis _ => Option.none
  | .pAns _ => Option.none | .mWait _ => Option.none | .can1 _ => Option.none | .can2 _ => Option.none | .can3 _ => Option.none
  | .hCan _ => Option.none | .hCom _ => Option.none | .sCom _ => Option.none | .sCan t => some t | .clr t => some t

@[grind =] def Op.looks : Op → Option Nat
  | .none => Option.none | .assign _ => Option.none | .pWait _ => Option.none | .pTest _ => Option.none | .pDis _ => Option.none
  | .pAns _ => Option.none | .mWait _ => Option.none | .can1 _ => Option.none | .can2 _ => Option.none | .can3 _ => Option.none
  | .hCan t => some t | .hCom t => some t | .sCom t => some t | .sCan t => some t | .clr t => some t

@[grind =] theorem sleptLast_cons {t : Nat} {e : Ev} {l : List Ev} :
    SleptLast t (e :: l) ↔ (e ≠ .woke t ∧ SleptLast t l) ∨ (e = .slept t ∧ .woke t ∈ l ∧ .looked t ∈ l) := by
  constructor
  · rintro ⟨a, b, h1, h2, h3, h4⟩
    cases a with
    | nil => simp at h1; obtain ⟨h5, h6⟩ := h1; subst h6; exact .inr ⟨h5, h3, h4⟩
    | cons x a =>
      simp at h1 h2
      obtain ⟨h5, h6⟩ := h1
      subst h5
      exact .inl ⟨fun h => h2.1 h.symm, a, b, h6, h2.2, h3, h4⟩
  · rintro (⟨h0, a, b, h1, h2, h3, h4⟩ | ⟨h1, h2, h3⟩)
    · exact ⟨e :: a, b, by simp [h1], by simp [h2]; exact fun h => h0 h.symm, h3, h4⟩
    · exact ⟨[], l, by simp [h1], by simp, h2, h3⟩

/-- Waiting. -/
structure Waits (s : St) : Prop where
  looked : ∀ t, s.op.clrs = some t → .looked t ∈ s.log
  woken : ∀ t, (s.tasks t).yields = true → (s.tasks t).w.woken = true → .woke t ∈ s.log
  ready : ∀ t, (s.tasks t).yields = true → (s.tasks t).w.woken = true → (s.tasks t).ready = true ∨ SleptLast t s.log
  look : ∀ t, s.op.looks = some t → (s.tasks t).co = .running ∨ (s.tasks t).ready = true ∨ (s.tasks t).expires = true
  main : ∀ t, s.op = .mWait t → (s.tasks t).what = .mainRequest

set_option maxHeartbeats 4000000 in
theorem Waits.next {s s' : St} {a : Act} (B : Base s) (P : PathOk s) (H : Waits s) (h : step s a = some s') : Waits s' := by
  have b5 := B.fresh
  have p7 := P.last
  have hc : ∀ t, (s.tasks t).co = .running ∨ (s.tasks t).co = .waiting ∨ (s.tasks t).co = .over := by
    intro t; cases (s.tasks t).co <;> simp
  clear B P
  obtain ⟨h1, h2, h3, h4, h5⟩ := H
  step_cases h
  all_goals constructor
  all_goals first | assumption | grind [upd, Task.yields, inLua_iff, atTop]

/-- The coroutine does not go on. -/
structure Stays (t : Nat) (b c : Prop) (s : St) : Prop where
  w : (s.tasks t).w.woken = true
  lt : t < s.n
  yields : (s.tasks t).yields = true
  op : s.op.looks ≠ some t
  co : ((s.tasks t).co = .waiting ∧ (s.tasks t).ready = false ∧ (s.tasks t).expires = false) ∨ (s.tasks t).co = .over
  result : .result t ∈ s.log ↔ b
  noMore : .noMore t ∈ s.log ↔ c

set_option maxHeartbeats 4000000 in
theorem Stays.next {s s' : St} {a : Act} {t : Nat} {b c : Prop} (W : Waits s) (H : Stays t b c s) (h : step s a = some s') :
    Stays t b c s' := by
  have w5 := W.main t
  clear W
  obtain ⟨h1, h2, h3, h4, h5, h6, h7⟩ := H
  step_cases h
  all_goals constructor
  all_goals first | assumption | grind [upd, Task.yields]

end Clink.Tasks
