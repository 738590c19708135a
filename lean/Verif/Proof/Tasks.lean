import Verif.Spec.Tasks

namespace Clink.Tasks

open Spec

syntax "step_cases" ident : tactic
macro_rules
  | `(tactic| step_cases $h:ident) => `(tactic| (
      simp only [step, pathType, look, opStep, loopStep, workStep, wakeStep, add, St.set, newRequest] at $h:ident
      repeat' (split at $h:ident)
      all_goals (first | (simp only [reduceCtorEq] at $h:ident; done) | skip)
      all_goals (try simp only [Option.some.injEq] at $h:ident)
      all_goals (try subst $h:ident)))

/-- The task that a loop is at, those that are left, whether scripts run. -/
@[grind =] def Pc.cur : Pc → Option Nat
  | .free => none
  | .loop _ _ => none
  | .run1 t _ => some t
  | .inCb t _ => some t
  | .run2 t _ => some t
  | .can1 _ t _ => some t
  | .can2 _ t _ => some t
  | .can3 _ t _ => some t
  | .det1 _ t _ => some t
  | .det2 _ t _ => some t
  | .det3 _ t _ => some t
  | .take _ t _ => some t
  | .unref => none

@[grind =] def Pc.left : Pc → List Nat
  | .free => []
  | .loop _ l => l
  | .run1 _ l => l
  | .inCb _ l => l
  | .run2 _ l => l
  | .can1 _ _ l => l
  | .can2 _ _ l => l
  | .can3 _ _ l => l
  | .det1 _ _ l => l
  | .det2 _ _ l => l
  | .det3 _ _ l => l
  | .take _ _ l => l
  | .unref => []

@[grind =] def Pc.lua : Pc → Bool
  | .free => true
  | .loop _ _ => false
  | .run1 _ _ => false
  | .inCb _ _ => true
  | .run2 _ _ => false
  | .can1 _ _ _ => false
  | .can2 _ _ _ => false
  | .can3 _ _ _ => false
  | .det1 _ _ _ => false
  | .det2 _ _ _ => false
  | .det3 _ _ _ => false
  | .take _ _ _ => false
  | .unref => false

@[grind =] def Op.task : Op → Option Nat
  | .none => Option.none
  | .assign t | .pWait t | .pTest t | .pDis t | .pAns t | .mWait t | .can1 t | .can2 t | .can3 t | .hCan t | .hCom t
  | .sCom t | .sCan t | .clr t => some t

theorem inLua_iff (s : St) : inLua s = true ↔ s.op = .none ∧ s.pc.lua = true := by
  unfold inLua Pc.lua
  cases s.pc <;> simp

/-- The tasks in the map. -/
structure Base (s : St) : Prop where
  nodup : s.map.Nodup
  lt : ∀ t ∈ s.map, t < s.n
  keys : ∀ t ∈ s.map, ∀ u ∈ s.map, (s.tasks t).key = (s.tasks u).key → t = u
  nums : ∀ t ∈ s.map, ∀ k, (s.tasks t).key = .num k → k < s.n
  lua : s.op ≠ .none → s.pc.lua = true
  cur : ∀ t, s.pc.cur = some t → t ∈ s.map ∧ t ∉ s.pc.left
  left : s.pc.left.Nodup
  sub : ∀ t ∈ s.pc.left, t ∈ s.map
  op : ∀ t, s.op.task = some t → t < s.n
  fresh : ∀ t, s.n ≤ t → (s.tasks t).w = .none ∧ (s.tasks t).cb = none ∧ (s.tasks t).complete = false ∧
    (s.tasks t).run = false ∧ (s.tasks t).co = .over ∧ (s.tasks t).thr = none
  assign : ∀ t, s.op = .assign t → t ∈ s.map ∧ (s.tasks t).thr = none

theorem perm_nodup {l m : List Nat} (h : l.isPerm m = true) (hm : m.Nodup) : l.Nodup := (List.isPerm_iff.1 h).nodup_iff.2 hm

theorem perm_mem {l m : List Nat} (h : l.isPerm m = true) (t : Nat) : t ∈ l ↔ t ∈ m := (List.isPerm_iff.1 h).mem_iff

set_option maxHeartbeats 4000000 in
theorem Base.next {s s' : St} {a : Act} (H : Base s) (h : step s a = some s') : Base s' := by
  obtain ⟨h1, h2, h3, h4, h5, h6, h7, h8, h9, h10, h11⟩ := H
  step_cases h
  all_goals constructor
  all_goals first | assumption | grind [upd, find, inLua_iff, atTop, List.nodup_cons, List.mem_of_mem_erase, List.Nodup.erase, perm_nodup, perm_mem]

end Clink.Tasks
