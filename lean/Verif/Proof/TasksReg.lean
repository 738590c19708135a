import Verif.Proof.TasksLog

namespace Clink.Tasks

open Spec

/-- The slots of the registry. -/
structure RegOk (s : St) : Prop where
  cb : ∀ t ∈ s.map, ∀ n, (s.tasks t).cb = some n → s.reg n = some (.cb t)
  pend : ∀ t n, (t, n) ∈ s.pending → s.reg n = some (.cb t)
  called : ∀ t o, .called t o ∈ s.log → o = some (.cb t)
  released : ∀ t o, .released t o ∈ s.log → o = some (.cb t)

set_option maxHeartbeats 4000000 in
theorem RegOk.next {s s' : St} {a : Act} (B : Base s) (C : Calls s) (H : RegOk s) (hc : Calm s a) (h : step s a = some s') :
    RegOk s' := by
  have b1 := B.lt
  have b2 := B.lua
  have b3 := B.cur
  have b5 := B.fresh
  have c1 := C.pend
  have c2 := C.nodup
  clear B C
  obtain ⟨h1, h2, h3, h4⟩ := H
  unfold Calm at hc
  step_cases h
  all_goals constructor
  all_goals first | assumption | grind [upd, inLua_iff, atTop, List.mem_of_mem_erase, mem_pending, not_mem_fst]

end Clink.Tasks
