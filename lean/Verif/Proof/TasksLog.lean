import Verif.Proof.Tasks

namespace Clink.Tasks

open Spec

theorem after_nil (a b : Ev) : After [] a b := by
  intro l l' h
  cases l <;> simp at h

theorem notAfter_nil (a b : Ev) : NotAfter [] a b := by
  intro l l' h
  cases l <;> simp at h

@[grind =] theorem after_cons (e : Ev) (log : List Ev) (a b : Ev) : After (e :: log) a b ↔ After log a b ∧ (e = a → b ∈ log) := by
  constructor
  · intro h
    exact ⟨fun l l' he => h (e :: l) l' (by rw [he]; rfl), fun he => h [] log (by rw [he]; rfl)⟩
  · rintro ⟨h1, h2⟩ l l' he
    cases l with
    | nil => simp only [List.nil_append, List.cons.injEq] at he; rw [← he.2]; exact h2 he.1
    | cons x l => simp only [List.cons_append, List.cons.injEq] at he; exact h1 l l' he.2

@[grind =] theorem notAfter_cons (e : Ev) (log : List Ev) (a b : Ev) : NotAfter (e :: log) a b ↔ NotAfter log a b ∧ (e = a → b ∉ log) := by
  constructor
  · intro h
    exact ⟨fun l l' he => h (e :: l) l' (by rw [he]; rfl), fun he => h [] log (by rw [he]; rfl)⟩
  · rintro ⟨h1, h2⟩ l l' he
    cases l with
    | nil => simp only [List.nil_append, List.cons.injEq] at he; rw [← he.2]; exact h2 he.1
    | cons x l => simp only [List.cons_append, List.cons.injEq] at he; exact h1 l l' he.2

/-- The task of `on_idle`. -/
@[grind =] def Pc.idleCur : Pc → Option Nat
  | .free => none
  | .loop _ _ => none
  | .run1 t _ => some t
  | .inCb t _ => some t
  | .run2 t _ => some t
  | .can1 k t _ => if k = .idle then some t else none
  | .can2 k t _ => if k = .idle then some t else none
  | .can3 k t _ => if k = .idle then some t else none
  | .det1 k t _ => if k = .idle then some t else none
  | .det2 k t _ => if k = .idle then some t else none
  | .det3 k t _ => if k = .idle then some t else none
  | .take k t _ => if k = .idle then some t else none
  | .unref => none

/-- The same, after it is known whether to run the callback. -/
@[grind =] def Pc.past : Pc → Option Nat
  | .free => none
  | .loop _ _ => none
  | .run1 _ _ => none
  | .inCb t _ => some t
  | .run2 t _ => some t
  | .can1 k t _ => if k = .idle then some t else none
  | .can2 k t _ => if k = .idle then some t else none
  | .can3 k t _ => if k = .idle then some t else none
  | .det1 k t _ => if k = .idle then some t else none
  | .det2 k t _ => if k = .idle then some t else none
  | .det3 k t _ => if k = .idle then some t else none
  | .take k t _ => if k = .idle then some t else none
  | .unref => none

/-- The callbacks. -/
structure Calls (s : St) : Prop where
  done : ∀ t, (s.tasks t).complete = true → .done t ∈ s.log
  comp : ∀ t, s.pc.idleCur = some t → (s.tasks t).complete = true
  cb : ∀ t n, (s.tasks t).cb = some n → .added t ∈ s.log
  called : ∀ t o, .called t o ∈ s.log → t < s.n ∧ ((s.tasks t).cb = none ∨ s.pc.past = some t)
  released : ∀ t o, .released t o ∈ s.log → t < s.n ∧ (s.tasks t).cb = none ∧ ∀ n, (t, n) ∉ s.pending
  pend : ∀ t n, (t, n) ∈ s.pending → t < s.n ∧ (s.tasks t).cb = none
  nodup : (s.pending.map Prod.fst).Nodup
  disabled : ∀ t, .disabled t ∈ s.log → t < s.n ∧ (s.tasks t).run = false
  dropped : ∀ t, .dropped t ∈ s.log → t < s.n ∧ (s.tasks t).run = false

theorem mem_pending {l : List (Nat × Nat)} {t : Nat} : t ∈ l.map Prod.fst ↔ ∃ n, (t, n) ∈ l := by simp

theorem not_mem_fst {l : List (Nat × Nat)} {t n : Nat} (h : (t, n) ∈ l) : t ∈ l.map Prod.fst := mem_pending.2 ⟨n, h⟩

set_option maxHeartbeats 4000000 in
theorem Calls.next {s s' : St} {a : Act} (B : Base s) (H : Calls s) (h : step s a = some s') : Calls s' := by
  have b1 := B.lt
  have b2 := B.lua
  have b3 := B.cur
  have b4 := B.op
  have b5 := B.fresh
  clear B
  obtain ⟨h1, h2, h3, h4, h5, h6, h7, h8, h9⟩ := H
  step_cases h
  all_goals constructor
  all_goals first | assumption | grind [upd, inLua_iff, atTop, List.nodup_append, mem_pending, not_mem_fst]

/-- What happens after what. -/
structure Order (s : St) : Prop where
  c1 : ∀ t o, After s.log (.called t o) (.done t)
  c2 : ∀ t o, After s.log (.called t o) (.added t)
  c3 : ∀ t o o', NotAfter s.log (.called t o) (.called t o')
  c4 : ∀ t o o', NotAfter s.log (.called t o) (.released t o')
  c5 : ∀ t o, NotAfter s.log (.called t o) (.disabled t)
  c6 : ∀ t o, NotAfter s.log (.called t o) (.dropped t)
  r1 : ∀ t o o', NotAfter s.log (.released t o) (.released t o')

set_option maxHeartbeats 4000000 in
theorem Order.next {s s' : St} {a : Act} (B : Base s) (C : Calls s) (H : Order s) (h : step s a = some s') : Order s' := by
  have b3 := B.cur
  clear B
  obtain ⟨h1, h2, h3, h4, h5, h6, h7, h8, h9⟩ := C
  obtain ⟨o1, o2, o3, o4, o5, o6, o7⟩ := H
  step_cases h
  all_goals constructor
  all_goals first | assumption | grind [upd]

end Clink.Tasks
