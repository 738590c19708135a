import Verif.Proof.TasksRun

namespace Clink.Tasks

open Spec

/-- The tasks that `on_idle` has yet to visit. -/
@[grind =] def Pc.idleLeft : Pc → List Nat
  | .free => []
  | .loop k r => if k = .idle then r else []
  | .run1 _ r => r | .inCb _ r => r | .run2 _ r => r
  | .can1 k _ r => if k = .idle then r else []
  | .can2 k _ r => if k = .idle then r else []
  | .can3 k _ r => if k = .idle then r else []
  | .det1 k _ r => if k = .idle then r else []
  | .det2 k _ r => if k = .idle then r else []
  | .det3 k _ r => if k = .idle then r else []
  | .take k _ r => if k = .idle then r else []
  | .unref => []

/-- In the loop that frees. -/
@[grind =] def Pc.frees : Pc → Bool
  | .free => false | .loop _ _ => false | .run1 .. => false | .inCb .. => false | .run2 .. => false
  | .can1 _ _ _ => false | .can2 _ _ _ => false | .can3 _ _ _ => false | .det1 _ _ _ => false | .det2 _ _ _ => false
  | .det3 _ _ _ => false | .take _ _ _ => false | .unref => true

/-- In `shutdown`. -/
@[grind =] def Pc.shuts : Pc → Bool
  | .free => false
  | .loop k _ => if k = .shut then true else false
  | .run1 .. => false | .inCb .. => false | .run2 .. => false
  | .can1 k _ _ => if k = .shut then true else false
  | .can2 k _ _ => if k = .shut then true else false
  | .can3 k _ _ => if k = .shut then true else false
  | .det1 k _ _ => if k = .shut then true else false
  | .det2 k _ _ => if k = .shut then true else false
  | .det3 k _ _ => if k = .shut then true else false
  | .take k _ _ => if k = .shut then true else false
  | .unref => false

/-- Nothing is forgotten. -/
structure Kept (s : St) : Prop where
  done : ∀ t ∈ s.map, (s.tasks t).w = .done → s.event = true ∨ t ∈ s.pc.idleLeft ∨ s.pc.idleCur = some t
  pend : s.pending ≠ [] → s.event = true ∨ s.pc.idles = true ∨ s.pc.frees = true ∨ s.pc.flag = true
  added : ∀ t, .added t ∈ s.log → (s.tasks t).cb ≠ none ∨ (∃ n, (t, n) ∈ s.pending) ∨
    (∃ o, .released t o ∈ s.log) ∨ .kept t ∈ s.log
  shut : s.pc.shuts = true → ∀ t ∈ s.map, (s.tasks t).cb ≠ none → t ∈ s.pc.left ∨ s.pc.cur = some t
  cbs : ∀ t, (s.tasks t).cb ≠ none → t ∈ s.map ∨ s.zombie = true

set_option maxHeartbeats 4000000 in
theorem Kept.next {s s' : St} {a : Act} (B : Base s) (C : Calls s) (P : PathOk s) (R : Runs s) (H : Kept s)
    (h : step s a = some s') : Kept s' := by
  have b0 := B.nodup
  have b1 := B.lt
  have b2 := B.lua
  have b3 := B.cur
  have b5 := B.fresh
  have c2 := C.comp
  have p4 := P.comp
  have r2 := R.given
  have hl : s.pc.shuts = true → inLua s = false := by
    intro h; unfold inLua; cases hp : s.pc <;> simp_all [Pc.shuts]
  clear B C P R
  obtain ⟨h1, h2, h3, h5, h4⟩ := H
  step_cases h
  all_goals constructor
  all_goals first | assumption | grind [upd, inLua_iff, atTop, List.Nodup.mem_erase_iff, perm_mem]

end Clink.Tasks
