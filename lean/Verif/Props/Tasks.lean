import Verif.Proof.TasksAll

/-!
C54: the tasks that Lua scripts run in threads of their own (lua/src/async_lua_task.cpp), what the scripts are told, and
when.  For all orders in which the threads take their steps.
-/

namespace Clink.Tasks

open Spec

/-! ### Some runs -/

/-- The state after a run. -/
def after (l : List Act) : St := (steps {} l).getD {}

theorem after_reach {ok : St → Act → Prop} {l : List Act} (hok : ∀ a ∈ l, ∀ s, ok s a) (h : (steps {} l).isSome = true) :
    Reach ok (after l) := by
  unfold after
  cases hs : steps {} l with
  | none => simp [hs] at h
  | some s => exact Spec.Reach.steps hok .start hs

theorem after_any {l : List Act} (h : (steps {} l).isSome = true) : Reach Any (after l) :=
  after_reach (fun _ _ _ => trivial) h

/-- The type of a path is asked for with a callback; the thread does its work; then `on_idle`. -/
def alone : List Act :=
  [.path 5 (some 1), .op, .op, .op, .work 0 7] ++ List.replicate 7 (.work 0 0) ++ [.idle [0]] ++ List.replicate 9 .loop

/-- Two paths.  The first thread is through when the second has only just done its work; then `on_idle`. -/
def twoStart : List Act :=
  [.path 5 (some 1), .op, .op, .op, .path 6 (some 2), .op, .op, .op, .work 0 7] ++ List.replicate 7 (.work 0 0) ++
    [.work 1 8, .work 1 0, .idle [0, 1]] ++ List.replicate 8 .loop

def two : List Act := twoStart ++ [.ret []] ++ List.replicate 11 .loop ++ [.path 6 none]

/-- The end of a line comes while the thread detaches itself. -/
def race : List Act :=
  [.path 5 none, .op, .op, .op, .work 0 7, .work 0 0, .work 0 0, .work 0 0, .endLine [0], .loop, .loop, .loop, .loop, .loop,
    .work 0 0]

/-- A coroutine looks when the thread has woken it for the last time, but has not said yet that the work is done. -/
def sleep : List Act :=
  [.request false, .op, .finish 0, .work 0 0, .look 0 false, .op, .op, .work 0 0, .op] ++ List.replicate 6 (.work 0 0)

/-- A share is found after the coroutine has seen that there is none, and before it looks whether the work is done. -/
def share : List Act := [.shares false false, .op, .look 0 false, .found 0, .finish 0, .work 0 0, .work 0 0, .op]

/-- The coroutine is given up before the work is done. -/
def givenUp : List Act := [.request false, .op, .collect 0, .finish 0, .work 0 0]

/-- The line ends, and Lua is started again before `on_idle`; the new script has other things in the slot. -/
def stale : List Act :=
  [.path 5 (some 1), .op, .op, .op, .endLine [0], .loop, .loop, .loop, .loop, .loop, .loop, .loop, .loop, .loop,
    .shutdown false [], .loop, .reload, .ref 1 9, .idle [], .loop, .loop, .loop]

/-- The same, with the callback of a new task in the slot; when it is freed the script uses it for something else, and
that is called. -/
def staleCall : List Act :=
  [.path 5 (some 1), .op, .op, .op, .endLine [0], .loop, .loop, .loop, .loop, .loop, .loop, .loop, .loop, .loop,
    .shutdown false [], .loop, .reload, .path 6 (some 1), .op, .op, .op, .idle [1], .loop, .loop, .loop, .loop, .ref 1 9,
    .request false, .op, .finish 2] ++ List.replicate 8 (.work 2 0) ++ [.work 1 3, .work 1 0, .idle [1, 2], .loop, .loop]

/-! ### Callbacks -/

/-- The callback of a task is run only when the work is done, not twice, not after its slot was freed, not after the
script has the answer already or has cancelled the task, and not after the line or the Lua state came to its end. -/
theorem C54_called {s : St} (h : Reach Any s) (t : Nat) (o : Option Owner) :
    After s.log (.called t o) (.added t) ∧ After s.log (.called t o) (.done t) ∧
    (∀ o', NotAfter s.log (.called t o) (.called t o')) ∧ (∀ o', NotAfter s.log (.called t o) (.released t o')) ∧
    NotAfter s.log (.called t o) (.disabled t) ∧ NotAfter s.log (.called t o) (.dropped t) :=
  have H := h.inv.order
  ⟨H.c2 t o, H.c1 t o, H.c3 t o, H.c4 t o, H.c5 t o, H.c6 t o⟩

/-- In this run one is called. -/
example : Reach Any (after two) ∧ Ev.called 1 (some (.cb 1)) ∈ (after two).log :=
  ⟨after_any (by decide +kernel), by decide +kernel⟩

/-- What is in the slot is the callback, if no Lua state ends while there are callbacks to free. -/
theorem C54_right {s : St} (h : Reach Calm s) (t : Nat) (o : Option Owner)
    (hl : .called t o ∈ s.log ∨ .released t o ∈ s.log) : o = some (.cb t) := by
  rcases hl with hl | hl
  · exact h.reg.called t o hl
  · exact h.reg.released t o hl

example : Reach Calm (after two) ∧ Ev.released 0 (some (.cb 0)) ∈ (after two).log :=
  ⟨after_reach (fun a ha s hr => by subst hr; exact absurd ha (by decide +kernel)) (by decide +kernel), by decide +kernel⟩

/-- That is needed: otherwise a slot is freed that belongs to the new Lua state, and what is called is not the callback. -/
theorem C54_right_violated :
    ¬ ∀ s, Reach Any s → ∀ t o, (.released t o ∈ s.log → o = some (.cb t)) ∧ (.called t o ∈ s.log → o = some (.cb t)) := by
  intro h
  have h1 := (h (after stale) (after_any (by decide +kernel)) 0 (some (.other 9))).1 (by decide +kernel)
  simp at h1

example : Reach Any (after staleCall) ∧ Ev.called 1 (some (.other 9)) ∈ (after staleCall).log :=
  ⟨after_any (by decide +kernel), by decide +kernel⟩

/-- No slot is freed twice; and of a callback that was not freed yet when nothing goes on, either the task is in the map
and its thread has not come to the end, or it was left in a Lua state at its end, or came after the end of all. -/
theorem C54_released {s : St} (h : Reach Any s) (t : Nat) :
    (∀ o o', NotAfter s.log (.released t o) (.released t o')) ∧
    (.added t ∈ s.log → s.pc = .free → s.event = false →
      (∃ o, .released t o ∈ s.log) ∨ .kept t ∈ s.log ∨ (t ∈ s.map ∧ (s.tasks t).w ≠ .done) ∨ s.zombie = true) := by
  have H := h.inv
  refine ⟨fun o o' => H.order.r1 t o o', fun ha hp he => ?_⟩
  rcases H.kept.added t ha with h1 | ⟨n, h1⟩ | h1 | h1
  · rcases H.kept.cbs t h1 with h2 | h2
    · refine .inr (.inr (.inl ⟨h2, fun hw => ?_⟩))
      have h3 := H.kept.done t h2 hw
      simp [hp, he, Pc.idleLeft, Pc.idleCur] at h3
    · exact .inr (.inr (.inr h2))
  · have h3 := H.kept.pend (fun h => by simp [h] at h1)
    simp [hp, he, Pc.idles, Pc.frees, Pc.flag] at h3
  · exact .inl h1
  · exact .inr (.inl h1)

example : Reach Any (after alone) ∧ Ev.added 0 ∈ (after alone).log ∧ (after alone).pc = .free ∧ (after alone).event = false ∧
    (after alone).zombie = false ∧ Ev.kept 0 ∉ (after alone).log ∧ 0 ∉ (after alone).map :=
  ⟨after_any (by decide +kernel), by decide +kernel⟩

example : Reach Any (after stale) ∧ Ev.dropped 0 ∈ (after stale).log ∧ (after stale).pc = .free ∧
    (after stale).event = false ∧ Ev.kept 0 ∉ (after stale).log ∧ (after stale).map = [] ∧ (after stale).zombie = false :=
  ⟨after_any (by decide +kernel), by decide +kernel⟩

/-- When the main thread is in no loop, and there is a callback to free or a task whose thread has come to the end, then
the event is set that brings `on_idle`. -/
theorem C54_event {s : St} (h : Reach Any s) (hp : s.pc = .free)
    (hs : s.pending ≠ [] ∨ ∃ t ∈ s.map, (s.tasks t).w = .done) : s.event = true := by
  have H := h.inv.kept
  rcases hs with hs | ⟨t, ht, hw⟩
  · have h3 := H.pend hs
    simpa [hp, Pc.idles, Pc.frees, Pc.flag] using h3
  · have h3 := H.done t ht hw
    simpa [hp, Pc.idleLeft, Pc.idleCur] using h3

example : Reach Any (after (alone.take 12)) ∧ (after (alone.take 12)).pc = .free ∧ 0 ∈ (after (alone.take 12)).map ∧
    ((after (alone.take 12)).tasks 0).w = .done :=
  ⟨after_any (by decide +kernel), by decide +kernel⟩

example : Reach Any (after (stale.take 14)) ∧ (after (stale.take 14)).pc = .free ∧ (after (stale.take 14)).pending ≠ [] :=
  ⟨after_any (by decide +kernel), by decide +kernel⟩

/-- A callback is run only if the work of another task was done before, or a task was given up before: alone, the thread
turns its own callback off. -/
theorem C54_other {s : St} (h : Reach Any s) {l l' : List Ev} {t : Nat} {o : Option Owner}
    (hl : s.log = l ++ .called t o :: l') : (∃ u, u ≠ t ∧ Ev.done u ∈ l') ∨ ∃ u, Ev.dropped u ∈ l' :=
  h.inv.runs.other l l' t o hl

example : (after twoStart).log = [] ++ .called 1 (some (.cb 1)) :: (after twoStart).log.drop 1 := by decide +kernel

/-- Once the thread is past that, the callback is not run any more, whatever happens. -/
theorem C54_late {s s' : St} (h : Reach Any s) {t : Nat} {l : List Act} (hs : steps s l = some s')
    (hw : (s.tasks t).w ∈ [Wpc.tst, .det, .rst, .sig, .evt, .done]) (o : Option Owner) :
    .called t o ∈ s'.log ↔ .called t o ∈ s.log := by
  have H := h.inv
  have hlt : t < s.n := by
    apply Classical.byContradiction
    intro hn
    have := (H.base.fresh t (by omega)).1
    rw [this] at hw
    simp at hw
  have hr : (s.tasks t).run = false := by
    cases hr : (s.tasks t).run with
    | false => rfl
    | true =>
      have := H.runs.run t hr
      rcases hx : (s.tasks t).w <;> simp [hx, Wpc.before] at this hw
  exact (Off.steps (b := fun o => .called t o ∈ s.log) ⟨hlt, hr, fun _ => Iff.rfl⟩ hs).called o

example : Reach Any (after (alone.take 7)) ∧ ((after (alone.take 7)).tasks 0).w = .tst ∧
    (steps (after (alone.take 7)) (alone.drop 7)).isSome = true :=
  ⟨after_any (by decide +kernel), by decide +kernel⟩

/-- So it is not true that a callback is run in the end if the script did not turn it off and the line did not end. -/
theorem C54_lost_violated :
    ¬ ∀ s, Reach Any s → ∀ t, .added t ∈ s.log → s.pc = .free → s.op = .none → s.event = false → s.map = [] → s.pending = [] →
      .disabled t ∉ s.log → (∀ u, .dropped u ∉ s.log) → ∃ o, .called t o ∈ s.log := by
  intro h
  have h1 : (after alone).log = [.released 0 (some (.cb 0)), .leaveW 0, .enterW 0, .done 0, .asked 5 7, .added 0] := by
    decide +kernel
  obtain ⟨o, ho⟩ := h (after alone) (after_any (by decide +kernel)) 0 (by decide +kernel) (by decide +kernel)
    (by decide +kernel) (by decide +kernel) (by decide +kernel) (by decide +kernel) (by decide +kernel) (by simp [h1])
  simp [h1] at ho

/-! ### The map -/

/-- No two tasks in the map have the same key, and a task is found by its key, until the end of all. -/
theorem C54_keys {s : St} (h : Reach Any s) :
    (∀ t ∈ s.map, ∀ u ∈ s.map, (s.tasks t).key = (s.tasks u).key → t = u) ∧
    ∀ k t, find s k = some t ↔ s.zombie = false ∧ t ∈ s.map ∧ (s.tasks t).key = k := by
  have H := h.inv.base
  refine ⟨H.keys, fun k t => ?_⟩
  unfold find
  cases hz : s.zombie with
  | true => simp
  | false =>
    simp only [Bool.false_eq_true, if_false, true_and]
    constructor
    · intro hf
      exact ⟨List.mem_of_find?_eq_some hf, by simpa using List.find?_some hf⟩
    · rintro ⟨h1, h2⟩
      cases hf : s.map.find? (fun t => decide ((s.tasks t).key = k)) with
      | none => have := List.find?_eq_none.1 hf t h1; simp [h2] at this
      | some u =>
        have h3 := List.mem_of_find?_eq_some hf
        have h4 : (s.tasks u).key = k := by simpa using List.find?_some hf
        rw [H.keys u h3 t h1 (by rw [h4, h2])]

/-- While there is a task for a path, another one is not begun. -/
theorem C54_joined {s s' : St} (h : Reach Any s) {p : Path} {slot : Option Nat} {t : Nat} (ht : t ∈ s.map)
    (hk : (s.tasks t).key = .path p) (hz : s.zombie = false) (hs : step s (.path p slot) = some s') :
    s'.n = s.n ∧ s'.map = s.map := by
  have hf := ((C54_keys h).2 (.path p) t).2 ⟨hz, ht, hk⟩
  unfold step at hs
  split at hs
  · simp at hs
  · simp only at hs
    split at hs
    · unfold pathType at hs
      rw [hf] at hs
      cases hc : s.cache p <;> simp [hc] at hs <;> subst hs <;> simp
    · simp at hs

example : Reach Any (after (twoStart.take 8)) ∧ 1 ∈ (after (twoStart.take 8)).map ∧
    ((after (twoStart.take 8)).tasks 1).key = .path 6 ∧ (after (twoStart.take 8)).zombie = false ∧
    (step (after (twoStart.take 8)) (.path 6 (some 3))).isSome = true :=
  ⟨after_any (by decide +kernel), by decide +kernel⟩

/-! ### What the scripts are told -/

/-- The type that is told is one that the system gave for that very path. -/
theorem C54_answer {s : St} (h : Reach Any s) (p : Path) (k : Kind) : After s.log (.answer p k) (.asked p k) :=
  h.inv.told.answer p k

example : Reach Any (after two) ∧ Ev.answer 6 8 ∈ (after two).log := ⟨after_any (by decide +kernel), by decide +kernel⟩

/-- A result is given, and the end of the shares is told, only when the work is done; a coroutine that looks after that
does not go on waiting. -/
theorem C54_result {s : St} (h : Reach Any s) (t : Nat) :
    After s.log (.result t) (.done t) ∧ After s.log (.noMore t) (.done t) ∧ NotAfter s.log (.looked t) (.done t) ∧
    NotAfter s.log (.done t) (.done t) :=
  have H := h.inv.told
  ⟨H.result t, H.noMore t, H.looked t, H.once t⟩

example : Reach Any (after share) ∧ Ev.noMore 0 ∈ (after share).log := ⟨after_any (by decide +kernel), by decide +kernel⟩

/-- But when the end of the shares is told there may be some that were not told. -/
theorem C54_shares_violated :
    ¬ ∀ s, Reach Any s → ∀ t, .noMore t ∈ s.log → (s.tasks t).index = (s.tasks t).size := by
  intro h
  have := h (after share) (after_any (by decide +kernel)) 0 (by decide +kernel)
  revert this
  decide +kernel

/-- Only the script, and the end of the line or of the Lua state, cancel a task. -/
theorem C54_cancelled {s : St} (h : Reach Any s) {t : Nat} (hc : (s.tasks t).canceled = true) :
    .disabled t ∈ s.log ∨ .dropped t ∈ s.log :=
  h.inv.runs.canceled t hc

example : Reach Any (after (stale.take 9)) ∧ ((after (stale.take 9)).tasks 0).canceled = true :=
  ⟨after_any (by decide +kernel), by decide +kernel⟩

/-! ### Waiting -/

/-- If a coroutine waits although the thread will not wake it any more, then it has set the object to not ready after it
was woken for the last time; and it has looked before the work was done. -/
theorem C54_wait {s : St} (h : Reach Any s) {t : Nat} (hy : (s.tasks t).what = .request ∨ (s.tasks t).what = .shares)
    (hw : Wpc.ended (s.tasks t).w = true) (hr : (s.tasks t).ready = false) :
    SleptLast t s.log ∧ NotAfter s.log (.looked t) (.done t) ∧ .done t ∈ s.log := by
  have H := h.inv
  have hw' : (s.tasks t).w.woken = true := by rcases hx : (s.tasks t).w <;> simp_all [Wpc.ended, Wpc.woken]
  have hc : (s.tasks t).complete = true := by
    rw [H.path.comp t]; rcases hx : (s.tasks t).w <;> simp_all [Wpc.ended, Wpc.told]
  rcases H.waits.ready t (by rcases hy with hy | hy <;> simp [Task.yields, hy]) hw' with h1 | h1
  · rw [hr] at h1; exact absurd h1 (by simp)
  · exact ⟨h1, H.told.looked t, H.calls.done t hc⟩

/-- Such a coroutine, without a timeout, never gets the result. -/
theorem C54_stuck {s s' : St} (h : Reach Any s) {t : Nat} {l : List Act}
    (hy : (s.tasks t).what = .request ∨ (s.tasks t).what = .shares) (hw : Wpc.ended (s.tasks t).w = true)
    (hc : (s.tasks t).co = .waiting) (hr : (s.tasks t).ready = false) (he : (s.tasks t).expires = false)
    (hs : steps s l = some s') :
    (.result t ∈ s'.log ↔ .result t ∈ s.log) ∧ (.noMore t ∈ s'.log ↔ .noMore t ∈ s.log) := by
  have H := h.inv
  have hw' : (s.tasks t).w.woken = true := by rcases hx : (s.tasks t).w <;> simp_all [Wpc.ended, Wpc.woken]
  have hlt : t < s.n := by
    apply Classical.byContradiction
    intro hn
    have := (H.base.fresh t (by omega)).1
    rw [this] at hw'
    simp [Wpc.woken] at hw'
  have S : Stays t (.result t ∈ s.log) (.noMore t ∈ s.log) s := by
    refine ⟨hw', hlt, by rcases hy with hy | hy <;> simp [Task.yields, hy], ?_, .inl ⟨hc, hr, he⟩, Iff.rfl, Iff.rfl⟩
    intro ho
    have := H.waits.look t ho
    simp [hc, hr, he] at this
  have := S.steps H hs
  exact ⟨this.result, this.noMore⟩

example : Reach Any (after sleep) ∧ ((after sleep).tasks 0).what = .request ∧ ((after sleep).tasks 0).w = .done ∧
    ((after sleep).tasks 0).co = .waiting ∧ ((after sleep).tasks 0).ready = false ∧
    ((after sleep).tasks 0).expires = false ∧ (after sleep).crash = none ∧ Ev.result 0 ∉ (after sleep).log :=
  ⟨after_any (by decide +kernel), by decide +kernel⟩

/-- So it is not true that a coroutine that waits will go on when the work is done. -/
theorem C54_sleep_violated :
    ¬ ∀ s, Reach Any s → s.crash = none → ∀ t, (s.tasks t).what = .request → (s.tasks t).w = .done → (s.tasks t).co = .waiting →
      ∃ l s', steps s l = some s' ∧ .result t ∈ s'.log := by
  intro h
  have hr : Reach Any (after sleep) := after_any (by decide +kernel)
  obtain ⟨l, s', h1, h2⟩ := h _ hr (by decide +kernel) 0 (by decide +kernel) (by decide +kernel) (by decide +kernel)
  have := ((C54_stuck hr (t := 0) (.inl (by decide +kernel)) (by decide +kernel) (by decide +kernel) (by decide +kernel)
    (by decide +kernel) h1).1).1 h2
  revert this
  decide +kernel

/-! ### What must not happen -/

/-- A thread is detached twice, or through a null pointer, only if the main thread and the thread of the task have been
in `detach` at the same time. -/
theorem C54_overlap {s : St} (h : Reach Any s) {t : Nat} (hc : s.crash = some (.thread t)) : Overlap t s.log :=
  h.inv.threads.crash t hc

/-- That can happen. -/
theorem C54_race_violated : ¬ ∀ s, Reach Any s → ∀ t, s.crash ≠ some (.thread t) := by
  intro h
  exact h (after race) (after_any (by decide +kernel)) 0 (by decide +kernel)

/-- An object to wait with is not used after it was collected, if none is collected before the end. -/
theorem C54_freed {s : St} (h : Reach Keeps s) (t : Nat) : s.crash ≠ some (.freed t) := h.live.crash t

example : Reach Keeps (after sleep) ∧ Ev.woke 0 ∈ (after sleep).log :=
  ⟨after_reach (fun a ha s => ⟨fun t hr => by subst hr; simp [sleep] at ha, fun hr => by subst hr; simp [sleep] at ha⟩)
    (by decide +kernel), by decide +kernel⟩

/-- Otherwise it may be. -/
theorem C54_freed_violated : ¬ ∀ s, Reach Any s → ∀ t, s.crash ≠ some (.freed t) := by
  intro h
  exact h (after givenUp) (after_any (by decide +kernel)) 0 (by decide +kernel)

end Clink.Tasks
