import Verif.Proof.TasksPath

namespace Clink.Tasks

open Spec

/-- In `on_idle`, up to the loop that frees. -/
@[grind =] def Pc.idles : Pc → Bool
  | .free => false
  | .loop k _ => if k = .idle then true else false
  | .run1 .. => true | .inCb .. => true | .run2 .. => true
  | .can1 k _ _ => if k = .idle then true else false
  | .can2 k _ _ => if k = .idle then true else false
  | .can3 k _ _ => if k = .idle then true else false
  | .det1 k _ _ => if k = .idle then true else false
  | .det2 k _ _ => if k = .idle then true else false
  | .det3 k _ _ => if k = .idle then true else false
  | .take k _ _ => if k = .idle then true else false
  | .unref => false

/-- It may still run the callback. -/
@[grind =] def Wpc.before : Wpc → Bool
  | .none => true | .work => true | .last => true | .comp => true | .can => true | .tst => false | .det => false
  | .rst => false | .sig => false | .evt => false | .done => false

@[grind =] def Loop.flag : Loop → Bool
  | .idle => false | .line b => b | .shut => false

@[grind =] def Pc.flag : Pc → Bool
  | .free => false
  | .loop k _ => k.flag
  | .run1 .. => false | .inCb .. => false | .run2 .. => false
  | .can1 k _ _ => k.flag
  | .can2 k _ _ => k.flag
  | .can3 k _ _ => k.flag
  | .det1 k _ _ => k.flag
  | .det2 k _ _ => k.flag
  | .det3 k _ _ => k.flag
  | .take k _ _ => k.flag
  | .unref => false

/-- The task whose step of `detach` is next has been given up in a loop that is not `on_idle`. -/
@[grind =] def Pc.given : Pc → Option Nat
  | .free => none
  | .loop _ _ => none
  | .run1 .. => none | .inCb .. => none | .run2 .. => none
  | .can1 _ _ _ => none
  | .can2 k t _ => if k = .idle then none else some t
  | .can3 k t _ => if k = .idle then none else some t
  | .det1 k t _ => if k = .idle then none else some t
  | .det2 k t _ => if k = .idle then none else some t
  | .det3 k t _ => if k = .idle then none else some t
  | .take k t _ => if k = .idle then none else some t
  | .unref => none

@[grind =] def Pc.can3s : Pc → Option Nat
  | .free => none
  | .loop _ _ => none
  | .run1 .. => none | .inCb .. => none | .run2 .. => none
  | .can1 _ _ _ => none
  | .can2 _ _ _ => none
  | .can3 k t _ => if k = .idle then some t else none
  | .det1 _ _ _ => none
  | .det2 _ _ _ => none
  | .det3 _ _ _ => none
  | .take _ _ _ => none
  | .unref => none

@[grind =] def Op.cans : Op → Option Nat
  | .none => Option.none | .assign _ => Option.none | .pWait _ => Option.none | .pTest _ => Option.none | .pDis _ => Option.none
  | .pAns _ => Option.none | .mWait _ => Option.none | .can1 _ => Option.none | .can2 t => some t | .can3 t => some t
  | .hCan _ => Option.none | .hCom _ => Option.none | .sCom _ => Option.none | .sCan _ => Option.none | .clr _ => Option.none

/-- A reason for `on_idle`. -/
def Cause (n : Nat) (tasks : Nat → Task) (log : List Ev) : Prop :=
  (∃ u, u < n ∧ Ev.done u ∈ log ∧ (tasks u).run = false) ∨ ∃ u, Ev.dropped u ∈ log

/-- A reason to run the callback of a task. -/
def For (t : Nat) (log : List Ev) : Prop := (∃ u, u ≠ t ∧ Ev.done u ∈ log) ∨ ∃ u, Ev.dropped u ∈ log

/-- There always was one. -/
def Prompted (log : List Ev) : Prop := ∀ l l' t o, log = l ++ .called t o :: l' → For t l'

@[grind =] theorem prompted_nil : Prompted [] ↔ True := by simp [Prompted]

@[grind =] theorem prompted_cons {log : List Ev} {e : Ev} :
    Prompted (e :: log) ↔ Prompted log ∧ ∀ t o, e = .called t o → For t log := by
  refine ⟨fun h => ⟨fun l l' t o hl => h (e :: l) l' t o (by simp [hl]), fun t o he => h [] log t o (by simp [he])⟩, ?_⟩
  rintro ⟨h1, h2⟩ l l' t o hl
  cases l with
  | nil => simp at hl; obtain ⟨h3, h4⟩ := hl; subst h4; exact h2 t o h3
  | cons a l => simp at hl; exact h1 l l' t o hl.2

theorem Cause.forOther {n : Nat} {tasks : Nat → Task} {log : List Ev} (h : Cause n tasks log) {t : Nat}
    (ht : (tasks t).run = true) : For t log := by
  rcases h with ⟨u, _, h2, h3⟩ | h
  · exact .inl ⟨u, fun h => by simp [h, ht] at h3, h2⟩
  · exact .inr h

/-- When callbacks are run. -/
structure Runs (s : St) : Prop where
  run : ∀ t, (s.tasks t).run = true → (s.tasks t).w.before = true
  given : ∀ t, s.pc.given = some t → .dropped t ∈ s.log
  flag : s.pc.flag = true → ∃ u, Ev.dropped u ∈ s.log
  idles : s.event = true ∨ s.pc.idles = true → Cause s.n s.tasks s.log
  other : Prompted s.log
  can3 : s.pc.can3s = none
  cans : ∀ t, s.op.cans = some t → .disabled t ∈ s.log
  canceled : ∀ t, (s.tasks t).canceled = true → .disabled t ∈ s.log ∨ .dropped t ∈ s.log

set_option maxHeartbeats 4000000 in
theorem Runs.next {s s' : St} {a : Act} (B : Base s) (C : Calls s) (P : PathOk s) (H : Runs s) (h : step s a = some s') : Runs s' := by
  have b1 := B.lt
  have b2 := B.lua
  have b3 := B.cur
  have b5 := B.fresh
  have c1 := C.done
  have c2 := C.comp
  have p4 := P.comp
  clear B C P
  obtain ⟨h1, h2, h3, h4, h5, h6, h7, h8⟩ := H
  step_cases h
  all_goals constructor
  all_goals first | assumption | grind [upd, inLua_iff, atTop, Cause, Cause.forOther]

end Clink.Tasks
