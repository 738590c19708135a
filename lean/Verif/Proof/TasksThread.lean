import Verif.Proof.TasksPath

namespace Clink.Tasks

open Spec

@[grind =] theorem insideM_cons {t : Nat} {e : Ev} {l : List Ev} :
    insideM t (e :: l) = if e = .enterM t then true else if e = .leaveM t then false else insideM t l := by
  cases e <;> simp [insideM] <;> grind

@[grind =] theorem insideW_cons {t : Nat} {e : Ev} {l : List Ev} :
    insideW t (e :: l) = if e = .enterW t then true else if e = .leaveW t then false else insideW t l := by
  cases e <;> simp [insideW] <;> grind

@[grind =] theorem overlap_cons {t : Nat} {e : Ev} {l : List Ev} :
    Overlap t (e :: l) ↔ Overlap t l ∨ (insideM t (e :: l) = true ∧ insideW t (e :: l) = true) := by
  constructor
  · rintro ⟨a, b, h1, h2, h3⟩
    cases a with
    | nil => simp at h1; subst h1; exact .inr ⟨h2, h3⟩
    | cons x a => simp at h1; exact .inl ⟨a, b, h1.2, h2, h3⟩
  · rintro (⟨a, b, h1, h2, h3⟩ | ⟨h2, h3⟩)
    · exact ⟨e :: a, b, by simp [h1], h2, h3⟩
    · exact ⟨[], e :: l, rfl, h2, h3⟩

/-- The main thread is between `if (m_thread)` and the end of `detach`, before and after `m_thread->detach()`. -/
@[grind =] def Pc.det2s : Pc → Option Nat
  | .free => none | .loop _ _ => none | .run1 .. => none | .inCb .. => none | .run2 .. => none
  | .can1 _ _ _ => none | .can2 _ _ _ => none | .can3 _ _ _ => none | .det1 _ _ _ => none | .det2 _ t _ => some t
  | .det3 _ _ _ => none | .take _ _ _ => none | .unref => none

@[grind =] def Pc.det3s : Pc → Option Nat
  | .free => none | .loop _ _ => none | .run1 .. => none | .inCb .. => none | .run2 .. => none
  | .can1 _ _ _ => none | .can2 _ _ _ => none | .can3 _ _ _ => none | .det1 _ _ _ => none | .det2 _ _ _ => none
  | .det3 _ t _ => some t | .take _ _ _ => none | .unref => none

/-- Detaching. -/
structure Threads (s : St) : Prop where
  m : ∀ t, insideM t s.log = true ↔ s.pc.det2s = some t ∨ s.pc.det3s = some t
  w : ∀ t, insideW t s.log = true ↔ (s.tasks t).w = .det ∨ (s.tasks t).w = .rst
  crash : ∀ t, s.crash = some (.thread t) → Overlap t s.log
  thr1 : ∀ t, s.pc.det2s = some t → Overlap t s.log ∨ (s.tasks t).thr = some true
  thr2 : ∀ t, s.pc.det3s = some t → Overlap t s.log ∨ (s.tasks t).thr = some false
  thr3 : ∀ t, (s.tasks t).w = .det → Overlap t s.log ∨ (s.tasks t).thr = some true
  thr4 : ∀ t, (s.tasks t).w = .rst → Overlap t s.log ∨ (s.tasks t).thr = some false
  thr5 : ∀ t, (s.tasks t).thr = some false → Overlap t s.log ∨ s.pc.det3s = some t ∨ (s.tasks t).w = .rst

theorem overlap_now {t : Nat} {l : List Ev} (h1 : insideM t l = true) (h2 : insideW t l = true) : Overlap t l :=
  ⟨[], l, rfl, h1, h2⟩

set_option maxHeartbeats 4000000 in
theorem Threads.next {s s' : St} {a : Act} (B : Base s) (H : Threads s) (h : step s a = some s') : Threads s' := by
  have b2 := B.lua
  have b3 := B.cur
  have b5 := B.fresh
  have b6 := B.assign
  have ht : ∀ t, (s.tasks t).thr = none ∨ (s.tasks t).thr = some true ∨ (s.tasks t).thr = some false := by
    intro t; rcases (s.tasks t).thr with _ | _ | _ <;> simp
  clear B
  obtain ⟨h1, h2, h3, h4, h5, h6, h7, h8⟩ := H
  step_cases h
  all_goals constructor
  all_goals first | assumption | grind [upd, inLua_iff, atTop, overlap_now]

end Clink.Tasks
