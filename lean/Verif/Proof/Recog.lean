import Verif.Spec.Recog

/-! Lemmas about the recognizer. -/

namespace Clink.Recog

open Spec

theorem lookup_mem {k : List Nat} {c : Cached} (m : Map) (h : m.lookup k = some c) : (k, c) ∈ m := by
  induction m with
  | nil => simp at h
  | cons y l ih =>
    obtain ⟨a, b⟩ := y
    rw [List.lookup_cons] at h
    split at h
    · rename_i he
      cases h
      rw [eq_of_beq he]; simp
    · exact List.mem_cons_of_mem _ (ih h)

theorem lookup_put (m : Map) (k k' : List Nat) (c : Cached) : (m.put k c).lookup k' = if k' = k then some c else m.lookup k' := by
  rw [Map.put, List.lookup_cons]
  by_cases h : k' = k
  · subst h; simp
  · rw [if_neg h, beq_false_of_ne h]
    simp only
    induction m with
    | nil => rfl
    | cons y m ih =>
      obtain ⟨a, b⟩ := y
      rw [List.filter_cons]
      split
      · rw [List.lookup_cons, List.lookup_cons, ih]
      · rename_i ha
        have : a = k := by simpa using ha
        subst this
        rw [List.lookup_cons, beq_false_of_ne h, ih]

theorem put_ne (m : Map) (k : List Nat) (c : Cached) : m.put k c ≠ [] := by simp [Map.put]

theorem clear_outofdate {r : Rz} {now : Int} {k : List Nat} {c : Cached} (h : (r.clear now).cache.lookup k = some c) : c.outofdate = true := by
  have := lookup_mem _ h
  rw [Rz.clear] at this
  obtain ⟨x, -, hx⟩ := List.mem_map.1 this
  simp only [Prod.mk.injEq] at hx
  rw [← hx.2]

theorem set_cases (e : Event) : e.set = .opened true ∨ (e.set = e ∧ (e = .absent ∨ e = .closed)) := by cases e <;> simp [Event.set]

/-! The functions -/

theorem setAvailable_true {r : Rz} : (r.setAvailable true).1 = { r with available := true, ready := if r.available then r.ready else r.ready.set } := by
  rw [Rz.setAvailable]
  cases hr : r.available <;> simp

theorem store_true {r r' : Rz} {word file : List Nat} {recog : Recognition} {now : Int} {p : Bool} (h : r.store word file recog now p = (r', true)) :
    word ≠ [] ∧ r.usable = true ∧ r' = ((if p then { r with pending := r.pending.put word ⟨file, now, recog, false⟩ } else { r with cache := r.cache.put word ⟨file, now, recog, false⟩ }).setAvailable true).1 := by
  unfold Rz.store at h
  split at h
  · simp at h
  · split at h
    · simp at h
    · rename_i h1 h2
      simp only [Prod.mk.injEq, and_true] at h
      exact ⟨h1, by simpa using h2, h.symm⟩

theorem store_false {r r' : Rz} {word file : List Nat} {recog : Recognition} {now : Int} {p : Bool} (h : r.store word file recog now p = (r', false)) : r' = r := by
  unfold Rz.store at h
  split at h
  · simp at h; exact h.symm
  · split at h
    · simp at h; exact h.symm
    · simp at h

theorem enqueue_true {r r' : Rz} {q : Request} {hint : Recognition} {now : Int} {ok : Bool} (h : r.enqueue q hint now ok = (r', true)) :
    q.key ≠ [] ∧ r.usable = true ∧
      r' = { r with
        queue := q
        pending := r.pending.put q.key ⟨[], now, hint, false⟩
        event := if r.event = .absent then .opened true else r.event.set
        available := true
        ready := if r.available then r.ready else r.ready.set } := by
  unfold Rz.enqueue at h
  split at h
  · simp at h
  · rename_i h1
    simp only [not_or] at h1
    split at h
    · simp at h
    · rename_i h2
      have hu : r.usable = true := by simpa using h2
      split at h
      · simp at h
      · refine ⟨h1.1, hu, ?_⟩
        simp only [Prod.mk.injEq, and_true] at h
        rw [← h]
        have hu' : ∀ (e : Event) (q : Request), ({ r with event := e, queue := q } : Rz).usable = true := fun _ _ => hu
        by_cases he : r.event = .absent
        · simp only [if_pos he, Rz.store, if_neg h1.1, hu', setAvailable_true]
          simp [Event.set]
        · have hu'' : ∀ (q : Request), ({ r with queue := q } : Rz).usable = true := fun _ => hu
          simp only [if_neg he, Rz.store, if_neg h1.1, hu'', setAvailable_true]
          simp

theorem enqueue_false {r r' : Rz} {q : Request} {hint : Recognition} {now : Int} {ok : Bool} (h : r.enqueue q hint now ok = (r', false)) : r' = r := by
  unfold Rz.enqueue at h
  split at h
  · simp at h; exact h.symm
  · split at h
    · simp at h; exact h.symm
    · split at h
      · simp at h; exact h.symm
      · simp at h

theorem take_some {r r' : Rz} {q : Request} (h : r.take = (r', some q)) :
    r.usable = true ∧ q = r.queue ∧ q.key ≠ [] ∧ r' = { r with queue := ⟨[], [], []⟩, processing := true } := by
  unfold Rz.take at h
  split at h
  · simp at h
  · rename_i r1 q1 hq
    simp only [Prod.mk.injEq, Option.some.injEq] at h
    obtain ⟨rfl, rfl⟩ := h
    split at hq
    · simp at hq
    · unfold Rz.dequeue at hq
      split at hq
      · simp at hq
      · rename_i h1
        simp only [Option.some.injEq, Prod.mk.injEq] at hq
        obtain ⟨rfl, rfl⟩ := hq
        simp only [Bool.or_eq_true, Bool.not_eq_true', List.isEmpty_iff, not_or, Bool.not_eq_false] at h1
        exact ⟨h1.1, rfl, h1.2, rfl⟩

theorem take_none {r r' : Rz} (h : r.take = (r', none)) :
    (r.usable = false ∨ r.queue.key = []) ∧ r' = { r with processing := false, pending := [], ready := if r.zombie then r.ready else r.ready.set } := by
  unfold Rz.take at h
  split at h
  · rename_i hq
    simp only [Prod.mk.injEq, and_true] at h
    constructor
    · split at hq
      · rename_i hz
        left; simp [Rz.usable, hz]
      · unfold Rz.dequeue at hq
        split at hq
        · rename_i h1
          simp only [Bool.or_eq_true, Bool.not_eq_true', List.isEmpty_iff] at h1
          exact h1
        · simp at hq
    · rw [← h]
      cases hz : r.zombie <;> simp [Rz.notify]
  · simp at h

/-! The invariant -/

/-- The worker will look at the queue again. -/
def Active (pc : Pc) : Prop := pc = .looping ∨ (∃ q, pc = .searching q) ∨ pc = .notifying

structure Inv (s : State) : Prop where
  queue : s.r.queue.key ≠ [] → s.r.pending ≠ []
  busy : s.r.pending ≠ [] ∨ s.r.processing = true → Active s.pc ∨ s.r.event = .opened true
  search : ∀ q, s.pc = .searching q → s.r.processing = true ∧ q.key ≠ []
  proc : s.r.processing = true → Active s.pc
  thread : s.pc = .absent ↔ s.r.event = .absent
  blocked : s.main = .blocked → s.r.ready = .opened true ∨ Active s.pc ∨ s.r.event = .opened true
  zombie : s.r.zombie = true → s.r.pending = [] ∧ s.r.queue.key = [] ∧ (s.pc = .waiting → s.r.event = .opened true)
  inWait : s.main = .polling ∨ s.main = .blocked → s.r.usable = true
  avail : s.r.available = true → s.r.ready = .opened true
  ended : s.pc = .ended → s.r.zombie = true
  closed : s.r.event = .closed → s.r.zombie = true ∧ s.pc = .ended
  joining : s.main = .joining → s.r.zombie = true
  ready : s.r.ready ≠ .closed
  real : s.pc ≠ .absent → s.r.ready ≠ .absent

theorem start_inv {s : State} (h : Start s) : Inv s := by
  rcases h with rfl | rfl <;> constructor <;> simp [State.start, Active]

theorem usable_iff (r : Rz) : r.usable = true ↔ r.zombie = false ∧ r.ready ≠ .absent := by simp [Rz.usable]

theorem ready_opened {s : State} (hi : Inv s) (hu : s.r.usable = true) : ∃ b, s.r.ready = .opened b := by
  have h1 := hi.ready
  have h2 := ((usable_iff _).1 hu).2
  cases h : s.r.ready with
  | absent => exact absurd h h2
  | opened b => exact ⟨b, rfl⟩
  | closed => exact absurd h h1

theorem mainStep_inv {s s' : State} {e : Ev} (hi : Inv s) (h : MainStep s e s') : Inv s' := by
  cases h with
  | enqueue r pc q hint now ok r' h =>
    obtain ⟨h1, h2, rfl⟩ := enqueue_true h
    have hz : r.zombie = false := ((usable_iff _).1 h2).1
    have hn := put_ne r.pending q.key ⟨[], now, hint, false⟩
    have hev : (if r.event = .absent then Event.opened true else r.event.set) = .opened true := by
      split
      · rfl
      · rename_i h
        cases he : r.event with
        | absent => exact absurd he h
        | opened b => rfl
        | closed => have := (hi.closed he).1; rw [hz] at this; simp at this
    have hrd : (if r.available then r.ready else r.ready.set) = .opened true := by
      obtain ⟨b, hb⟩ := ready_opened hi h2
      simp only at hb
      split
      · rename_i ha; exact hi.avail ha
      · rw [hb]; rfl
    simp only [hev, hrd]
    have hpc : (if pc = Pc.absent then Pc.waiting else pc) ≠ .absent := by split <;> simp_all
    have hact : Active pc → Active (if pc = Pc.absent then Pc.waiting else pc) := by
      intro ha; rw [if_neg]; exact ha
      rintro rfl; simp [Active] at ha
    constructor <;> simp only
    · exact fun _ => hn
    · exact fun _ => .inr trivial
    · intro q' hq
      split at hq
      · simp at hq
      · exact hi.search q' hq
    · intro hp; exact hact (hi.proc hp)
    · simp [hpc]
    · simp
    · rw [hz]; simp
    · simp
    · simp
    · intro he
      split at he
      · simp at he
      · exact hi.ended he
    · simp
    · simp
    · simp
    · simp
  | refused r pc q hint now ok r' h => rw [enqueue_false h]; exact hi
  | clear r pc now =>
    constructor <;> simp only [Rz.clear]
    · simp
    · intro h; simp at h; exact .inl (hi.proc h)
    · exact hi.search
    · exact hi.proc
    · exact hi.thread
    · simp
    · intro h; exact ⟨trivial, trivial, (hi.zombie h).2.2⟩
    · simp
    · exact hi.avail
    · exact hi.ended
    · exact hi.closed
    · simp
    · exact hi.ready
    · exact hi.real
  | refresh r pc =>
    constructor <;> simp only [Rz.setAvailable]
    · exact hi.queue
    · exact hi.busy
    · exact hi.search
    · exact hi.proc
    · exact hi.thread
    · simp
    · exact hi.zombie
    · simp
    · simp
    · exact hi.ended
    · exact hi.closed
    · simp
    · have := hi.ready
      simp only at this
      cases hr : r.ready <;> simp_all [Event.reset]
    · intro hp
      have := hi.real hp
      simp only at this
      cases hr : r.ready <;> simp_all [Event.reset]
  | waitBegin r pc h => exact ⟨hi.queue, hi.busy, hi.search, hi.proc, hi.thread, by simp, hi.zombie, fun _ => h, hi.avail, hi.ended, hi.closed, by simp, hi.ready, hi.real⟩
  | waitBusy r pc h =>
    refine ⟨hi.queue, hi.busy, hi.search, hi.proc, hi.thread, fun _ => .inr (hi.busy ?_), hi.zombie, fun _ => hi.inWait (.inl rfl), hi.avail, hi.ended, hi.closed, by simp, hi.ready, hi.real⟩
    simp only [Rz.busy, Bool.or_eq_true, Bool.not_eq_true', List.isEmpty_eq_false_iff] at h
    exact h.symm
  | waitReady r pc h => exact ⟨hi.queue, hi.busy, hi.search, hi.proc, hi.thread, by simp, hi.zombie, fun _ => hi.inWait (.inr rfl), hi.avail, hi.ended, hi.closed, by simp, hi.ready, hi.real⟩
  | waitEnd r pc h => exact ⟨hi.queue, hi.busy, hi.search, hi.proc, hi.thread, by simp, hi.zombie, by simp, hi.avail, hi.ended, hi.closed, by simp, hi.ready, hi.real⟩
  | shutdown r pc now r' hz h =>
    unfold Rz.shutdown at h
    split at h
    · simp at h
    · rename_i hc
      simp only [Option.some.injEq] at h
      subst h
      have hev : pc ≠ .absent → r.event.set = .opened true := by
        intro hp
        rcases set_cases r.event with h | ⟨-, h | h⟩
        · exact h
        · exact absurd (hi.thread.2 h) hp
        · exact absurd h hc
      have hth := hi.thread
      simp only at hth
      constructor <;> simp only [Rz.clear]
      · simp
      · intro h; simp at h; exact .inl (hi.proc h)
      · exact hi.search
      · exact hi.proc
      · rw [hth]
        cases r.event <;> simp [Event.set]
      · simp
      · intro _
        refine ⟨trivial, trivial, fun hw => hev (by rw [hw]; simp)⟩
      · simp
      · exact hi.avail
      · simp
      · intro h
        cases he : r.event <;> simp_all [Event.set]
      · simp
      · exact hi.ready
      · exact hi.real
  | joined r pc h =>
    have hz := hi.joining rfl
    simp only at hz
    have hthr := hi.thread
    simp only at hthr
    rw [Rz.close]
    have hnp : r.processing = true → Active pc := hi.proc
    have hna : ¬ Active pc := by rcases h with rfl | rfl <;> simp [Active]
    split
    · refine ⟨hi.queue, hi.busy, hi.search, hi.proc, hi.thread, by simp, hi.zombie, by simp, hi.avail, hi.ended, hi.closed, by simp, hi.ready, hi.real⟩
    · rename_i he
      have hpc : pc = .ended := by
        rcases h with h | h
        · exact absurd (hthr.1 h) he
        · exact h
      subst hpc
      constructor <;> simp only
      · exact hi.queue
      · intro h
        have := (hi.zombie hz).1
        simp only at this
        rcases h with h | h
        · exact absurd this h
        · exact absurd (hnp h) hna
      · simp
      · exact hi.proc
      · simp
      · simp
      · intro _; exact ⟨(hi.zombie hz).1, (hi.zombie hz).2.1, by simp⟩
      · simp
      · exact hi.avail
      · exact fun _ => hz
      · exact fun _ => ⟨hz, trivial⟩
      · simp
      · exact hi.ready
      · exact hi.real

theorem workerStep_inv {s s' : State} {e : Ev} (hi : Inv s) (h : WorkerStep s e s') : Inv s' := by
  cases h with
  | wake r m h =>
    have hl : Active .looping := .inl rfl
    refine ⟨hi.queue, fun _ => .inl hl, by simp, fun _ => hl, by simp, fun _ => .inr (.inl hl), fun h => ?_, hi.inWait, hi.avail, by simp, by simp, hi.joining, hi.ready, fun _ => hi.real (by simp)⟩
    exact ⟨(hi.zombie h).1, (hi.zombie h).2.1, by simp⟩
  | take r m r' q h =>
    obtain ⟨h1, rfl, h2, rfl⟩ := take_some h
    have hz : r.zombie = false := ((usable_iff _).1 h1).1
    have hl : Active (.searching r.queue) := .inr (.inl ⟨_, rfl⟩)
    refine ⟨by simp, fun _ => .inl hl, ?_, fun _ => hl, ?_, fun _ => .inr (.inl hl), by simp [hz], hi.inWait, hi.avail, by simp, ?_, hi.joining, hi.ready, fun _ => hi.real (by simp)⟩
    · intro q' hq'
      cases hq'
      exact ⟨rfl, h2⟩
    · have := hi.thread
      simpa using this
    · intro he
      have := (hi.closed he).1
      simp [hz] at this
  | idle r m r' h =>
    obtain ⟨h1, rfl⟩ := take_none h
    have hth := hi.thread
    simp only at hth
    have hrd := hi.ready
    simp only at hrd
    have hre : r.ready ≠ .absent := hi.real (by simp)
    have hset : r.ready.set = .opened true := by cases hr : r.ready <;> simp_all [Event.set]
    have hq : r.queue.key = [] := by
      rcases h1 with h1 | h1
      · have hz : r.zombie = true := by
          rw [Rz.usable] at h1
          cases hz : r.zombie <;> simp_all
        exact (hi.zombie hz).2.1
      · exact h1
    simp only [hset]
    constructor <;> simp only
    · simp [hq]
    · simp
    · simp
    · simp
    · simp [← hth]
    · intro hb
      left
      have hz := ((usable_iff _).1 (hi.inWait (.inr hb))).1
      simp only at hz
      simp [hz]
    · intro hz; exact ⟨trivial, hq, by simp⟩
    · intro hm
      have hz := ((usable_iff _).1 (hi.inWait hm)).1
      simp only at hz
      simp [Rz.usable, hz]
    · intro ha
      have := hi.avail ha
      simp only at this
      simp [this]
    · simp
    · intro he; have := (hi.closed he).2; simp at this
    · exact hi.joining
    · split
      · exact hrd
      · simp
    · intro _
      split
      · exact hre
      · simp
  | answer r m q recog file now r' h =>
    obtain ⟨h1, h2, rfl⟩ := store_true h
    have hl : Active .notifying := .inr (.inr rfl)
    have hrd := hi.ready
    simp only at hrd
    have hre : r.ready ≠ .absent := hi.real (by simp)
    have hset : (if r.available then r.ready else r.ready.set) = .opened true := by
      split
      · rename_i h; exact hi.avail h
      · cases hr : r.ready <;> simp_all [Event.set]
    rw [setAvailable_true]
    simp only [Bool.false_eq_true, if_false, hset]
    have hth := hi.thread
    refine ⟨hi.queue, fun _ => .inl hl, by simp, fun _ => hl, by simpa using hth, fun _ => .inl rfl, ?_, ?_, fun _ => rfl, by simp, ?_, hi.joining, by simp, by simp⟩
    · intro hz; exact ⟨(hi.zombie hz).1, (hi.zombie hz).2.1, by simp⟩
    · intro hm
      have := (usable_iff _).1 (hi.inWait hm)
      simp only at this
      simp [Rz.usable, this.1]
    · intro he; have := (hi.closed he).2; simp at this
  | dropped r m q recog file now r' h =>
    rw [store_false h]
    have hl : Active .notifying := .inr (.inr rfl)
    have hth := hi.thread
    refine ⟨hi.queue, fun _ => .inl hl, by simp, fun _ => hl, by simpa using hth, fun _ => .inr (.inl hl), ?_, hi.inWait, hi.avail, by simp, ?_, hi.joining, hi.ready, fun _ => hi.real (by simp)⟩
    · intro hz; exact ⟨(hi.zombie hz).1, (hi.zombie hz).2.1, by simp⟩
    · intro he; have := (hi.closed he).2; simp at this
  | notify r m =>
    have hl : Active .looping := .inl rfl
    have hrd := hi.ready
    simp only at hrd
    have hre : r.ready ≠ .absent := hi.real (by simp)
    have hset : r.notify true = { r with available := true, ready := .opened true } := by
      rw [Rz.notify, if_pos rfl, setAvailable_true]
      simp only [Rz.mk.injEq, true_and]
      cases hr : r.ready <;> cases ha : r.available <;> simp_all [Event.set]
    rw [hset]
    have hth := hi.thread
    refine ⟨hi.queue, fun _ => .inl hl, by simp, fun _ => hl, by simpa using hth, fun _ => .inl rfl, ?_, ?_, fun _ => rfl, by simp, ?_, hi.joining, by simp, by simp⟩
    · intro hz; exact ⟨(hi.zombie hz).1, (hi.zombie hz).2.1, by simp⟩
    · intro hm
      have := (usable_iff _).1 (hi.inWait hm)
      simp only at this
      simp [Rz.usable, this.1]
    · intro he; have := (hi.closed he).2; simp at this
  | check r m =>
    have hb : r.pending ≠ [] ∨ r.processing = true → r.event = .opened true := by
      intro h
      rcases hi.busy h with h | h
      · simp [Active] at h
      · exact h
    have hp : r.processing ≠ true := by
      intro h; have := hi.proc h; simp [Active] at this
    have hth : ¬ r.event = .absent := by have := hi.thread; simpa using this
    refine ⟨hi.queue, fun h => .inr (hb h), ?_, fun h => absurd h hp, ?_, ?_, ?_, hi.inWait, hi.avail, ?_, ?_, hi.joining, hi.ready, fun _ => hi.real (by simp)⟩
    · intro q hq; split at hq <;> simp at hq
    · constructor
      · intro h; simp only at h; split at h <;> simp at h
      · intro h; exact absurd h hth
    · intro hm
      rcases hi.blocked hm with h | h | h
      · exact .inl h
      · simp [Active] at h
      · exact .inr (.inr h)
    · intro hz
      refine ⟨(hi.zombie hz).1, (hi.zombie hz).2.1, ?_⟩
      intro h
      simp only at h hz
      simp [hz] at h
    · intro h
      simp only at h
      split at h
      · assumption
      · simp at h
    · intro he; have := (hi.closed he).2; simp at this

theorem step_inv {s s' : State} {e : Ev} (hi : Inv s) (h : Step s e s') : Inv s' := by
  cases h with
  | main h => exact mainStep_inv hi h
  | worker h => exact workerStep_inv hi h
  | spurious r m =>
    have hl : Active .looping := .inl rfl
    have hth := hi.thread
    refine ⟨hi.queue, fun _ => .inl hl, by simp, fun _ => hl, by simpa using hth, fun _ => .inr (.inl hl), fun h => ?_, hi.inWait, hi.avail, by simp, ?_, hi.joining, hi.ready, fun _ => hi.real (by simp)⟩
    · exact ⟨(hi.zombie h).1, (hi.zombie h).2.1, by simp⟩
    · intro he; have := (hi.closed he).2; simp at this

theorem run_inv {s0 s : State} {tr : List Ev} (h0 : Start s0) (h : Run s0 tr s) : Inv s := by
  induction h with
  | nil => exact start_inv h0
  | snoc _ hs ih => exact step_inv ih hs

/-! Traces -/

/-- Where what is in the state comes from. -/
structure TInv (tr : List Ev) (s : State) : Prop where
  queue : s.r.queue.key ≠ [] → ∃ a b, tr = a ++ .request s.r.queue :: b ∧ ∀ e ∈ b, invalidates e = false ∧ isRequest e = false ∧ isTake e = false
  search : ∀ q, s.pc = .searching q → ∃ a b c, tr = a ++ .request q :: b ++ .take q :: c ∧
    (∀ e ∈ b, invalidates e = false ∧ isRequest e = false ∧ isTake e = false) ∧ ∀ e ∈ c, isTake e = false ∧ finishes e = false
  cache : ∀ k c, s.r.cache.lookup k = some c → c.outofdate = false → ∃ q between, q.key = k ∧ History tr q c.recog c.file between

theorem forall_snoc {α : Type} {P : α → Prop} {l : List α} {x : α} (h : ∀ y ∈ l, P y) (hx : P x) : ∀ y ∈ l ++ [x], P y := by
  intro y hy
  rcases List.mem_append.1 hy with hy | hy
  · exact h y hy
  · rw [List.mem_singleton.1 hy]; exact hx

theorem tinv_step {tr : List Ev} {s s' : State} {e : Ev} (ht : TInv tr s)
    (hq : s'.r.queue.key ≠ [] → (s'.r.queue = s.r.queue ∧ invalidates e = false ∧ isRequest e = false ∧ isTake e = false) ∨ e = .request s'.r.queue)
    (hs : ∀ q, s'.pc = .searching q → (s.pc = .searching q ∧ isTake e = false ∧ finishes e = false) ∨ (e = .take q ∧ q = s.r.queue ∧ q.key ≠ []))
    (hc : ∀ k c, s'.r.cache.lookup k = some c → c.outofdate = false → (s.r.cache.lookup k = some c ∧ invalidates e = false ∧ answers k e = false) ∨
      ∃ q, e = .answer q c.recog c.file ∧ q.key = k ∧ s.pc = .searching q) : TInv (tr ++ [e]) s' := by
  refine ⟨?_, ?_, ?_⟩
  · intro h
    rcases hq h with ⟨h1, h2⟩ | h1
    · rw [h1] at h ⊢
      obtain ⟨a, b, rfl, hb⟩ := ht.queue h
      exact ⟨a, b ++ [e], by simp, forall_snoc hb h2⟩
    · exact ⟨tr, [], by rw [h1], by simp⟩
  · intro q h
    rcases hs q h with ⟨h1, h2⟩ | ⟨rfl, rfl, h3⟩
    · obtain ⟨a, b, c, rfl, hb, hc⟩ := ht.search q h1
      exact ⟨a, b, c ++ [e], by simp, hb, forall_snoc hc h2⟩
    · obtain ⟨a, b, rfl, hb⟩ := ht.queue h3
      exact ⟨a, b, [], by simp, hb, by simp⟩
  · intro k c h ho
    rcases hc k c h ho with ⟨h1, h2, h3⟩ | ⟨q, rfl, rfl, h3⟩
    · obtain ⟨q, between, rfl, a, b, d, rfl, hb, hbt, hd⟩ := ht.cache k c h1 ho
      exact ⟨q, between, rfl, a, b, d ++ [e], by simp, hb, hbt, forall_snoc hd ⟨h2, h3⟩⟩
    · obtain ⟨a, b, c', rfl, hb, hc'⟩ := ht.search q h3
      exact ⟨q, c', rfl, a, b, [], by simp, hb, hc', by simp⟩

theorem setAvailable_fields (r : Rz) (b : Bool) : (r.setAvailable b).1.queue = r.queue ∧ (r.setAvailable b).1.cache = r.cache ∧ (r.setAvailable b).1.pending = r.pending ∧
    (r.setAvailable b).1.zombie = r.zombie := ⟨rfl, rfl, rfl, rfl⟩

theorem step_tinv {tr : List Ev} {s s' : State} {e : Ev} (ht : TInv tr s) (h : Step s e s') : TInv (tr ++ [e]) s' := by
  cases h with
  | main h =>
    cases h with
    | enqueue r pc q hint now ok r' h =>
      obtain ⟨h1, h2, rfl⟩ := enqueue_true h
      refine tinv_step ht (fun _ => .inr rfl) (fun q' hq => .inl ⟨?_, rfl, rfl⟩) (fun k c h _ => .inl ⟨h, rfl, rfl⟩)
      simp only at hq
      split at hq
      · simp at hq
      · exact hq
    | refused r pc q hint now ok r' h => rw [enqueue_false h]; exact tinv_step ht (fun _ => .inl ⟨rfl, rfl, rfl, rfl⟩) (fun q h => .inl ⟨h, rfl, rfl⟩) (fun k c h _ => .inl ⟨h, rfl, rfl⟩)
    | clear r pc now =>
      refine tinv_step ht (by simp [Rz.clear]) (fun q h => .inl ⟨h, rfl, rfl⟩) (fun k c h ho => ?_)
      rw [clear_outofdate h] at ho; simp at ho
    | refresh r pc => exact tinv_step ht (fun _ => .inl ⟨rfl, rfl, rfl, rfl⟩) (fun q h => .inl ⟨h, rfl, rfl⟩) (fun k c h _ => .inl ⟨h, rfl, rfl⟩)
    | waitBegin r pc h => exact tinv_step ht (fun _ => .inl ⟨rfl, rfl, rfl, rfl⟩) (fun q h => .inl ⟨h, rfl, rfl⟩) (fun k c h _ => .inl ⟨h, rfl, rfl⟩)
    | waitBusy r pc h => exact tinv_step ht (fun _ => .inl ⟨rfl, rfl, rfl, rfl⟩) (fun q h => .inl ⟨h, rfl, rfl⟩) (fun k c h _ => .inl ⟨h, rfl, rfl⟩)
    | waitReady r pc h => exact tinv_step ht (fun _ => .inl ⟨rfl, rfl, rfl, rfl⟩) (fun q h => .inl ⟨h, rfl, rfl⟩) (fun k c h _ => .inl ⟨h, rfl, rfl⟩)
    | waitEnd r pc h => exact tinv_step ht (fun _ => .inl ⟨rfl, rfl, rfl, rfl⟩) (fun q h => .inl ⟨h, rfl, rfl⟩) (fun k c h _ => .inl ⟨h, rfl, rfl⟩)
    | shutdown r pc now r' hz h =>
      unfold Rz.shutdown at h
      split at h
      · simp at h
      · simp only [Option.some.injEq] at h
        subst h
        refine tinv_step ht (by simp [Rz.clear]) (fun q h => .inl ⟨h, rfl, rfl⟩) (fun k c h ho => ?_)
        rw [clear_outofdate (r := r) (now := now) h] at ho; simp at ho
    | joined r pc h =>
      have hcl : r.close.queue = r.queue ∧ r.close.cache = r.cache := by rw [Rz.close]; split <;> exact ⟨rfl, rfl⟩
      exact tinv_step ht (fun _ => .inl ⟨hcl.1, rfl, rfl, rfl⟩) (fun q h => .inl ⟨h, rfl, rfl⟩) (fun k c h _ => .inl ⟨by rw [← hcl.2]; exact h, rfl, rfl⟩)
  | worker h =>
    cases h with
    | wake r m h => exact tinv_step ht (fun _ => .inl ⟨rfl, rfl, rfl, rfl⟩) (by simp) (fun k c h _ => .inl ⟨h, rfl, rfl⟩)
    | take r m r' q h =>
      obtain ⟨h1, rfl, h2, rfl⟩ := take_some h
      refine tinv_step ht (by simp) (fun q hq => .inr ?_) (fun k c h _ => .inl ⟨h, rfl, rfl⟩)
      cases hq
      exact ⟨rfl, rfl, h2⟩
    | idle r m r' h =>
      obtain ⟨h1, rfl⟩ := take_none h
      exact tinv_step ht (fun _ => .inl ⟨rfl, rfl, rfl, rfl⟩) (by simp) (fun k c h _ => .inl ⟨h, rfl, rfl⟩)
    | answer r m q recog file now r' h =>
      obtain ⟨h1, h2, rfl⟩ := store_true h
      refine tinv_step ht (fun _ => .inl ⟨rfl, rfl, rfl, rfl⟩) (by simp) (fun k c h _ => ?_)
      have hh : (r.cache.put q.key ⟨file, now, recog, false⟩).lookup k = some c := h
      rw [lookup_put] at hh
      split at hh
      · rename_i hk
        cases hh
        exact .inr ⟨q, rfl, hk.symm, rfl⟩
      · rename_i hk
        exact .inl ⟨hh, rfl, beq_false_of_ne (fun he => hk he.symm)⟩
    | dropped r m q recog file now r' h => rw [store_false h]; exact tinv_step ht (fun _ => .inl ⟨rfl, rfl, rfl, rfl⟩) (by simp) (fun k c h _ => .inl ⟨h, rfl, rfl⟩)
    | notify r m => exact tinv_step ht (fun _ => .inl ⟨rfl, rfl, rfl, rfl⟩) (by simp) (fun k c h _ => .inl ⟨h, rfl, rfl⟩)
    | check r m =>
      refine tinv_step ht (fun _ => .inl ⟨rfl, rfl, rfl, rfl⟩) (fun q h => ?_) (fun k c h _ => .inl ⟨h, rfl, rfl⟩)
      simp only at h
      split at h <;> simp at h
  | spurious r m => exact tinv_step ht (fun _ => .inl ⟨rfl, rfl, rfl, rfl⟩) (by simp) (fun k c h _ => .inl ⟨h, rfl, rfl⟩)

theorem run_tinv {s0 s : State} {tr : List Ev} (h0 : Start s0) (h : Run s0 tr s) : TInv tr s := by
  induction h with
  | nil => rcases h0 with rfl | rfl <;> exact ⟨by simp [State.start], by simp [State.start], by simp [State.start]⟩
  | snoc _ hs ih => exact step_tinv ih hs

/-- What `find` reports as current. -/
theorem find_one {r : Rz} {k : List Nat} {x : Recognition × Option (List Nat)} (h : r.find k = (1, x)) :
    ∃ c, r.cache.lookup k = some c ∧ c.outofdate = false ∧ x = (c.recog, some c.file) := by
  unfold Rz.find at h
  split at h
  · split at h
    · rename_i c hc
      split at h
      · rename_i ho
        simp only [Prod.mk.injEq, true_and] at h
        exact ⟨c, hc, by simpa using ho, h.symm⟩
      · split at h <;> simp at h
    · split at h <;> simp at h
  · simp at h

theorem find_of {r : Rz} {k : List Nat} {c : Cached} (hu : r.usable = true) (hc : r.cache.lookup k = some c) (ho : c.outofdate = false) : r.find k = (1, c.recog, some c.file) := by
  rw [Rz.find, if_pos hu, hc]
  simp [ho]

theorem find_pending {r : Rz} {k : List Nat} {x : Recognition × Option (List Nat)} (h : r.find k = (-1, x)) : r.pending ≠ [] := by
  intro hp
  unfold Rz.find at h
  rw [hp] at h
  split at h
  · split at h
    · split at h <;> simp at h
    · simp at h
  · simp at h

/-! The worker alone -/

def bit (b : Bool) : Nat := if b then 1 else 0

/-- The number of steps that the worker can take, at most. -/
def measure (s : State) : Nat :=
  3 * bit (s.r.usable && !s.r.queue.key.isEmpty) + 3 * bit (decide (s.r.event = .opened true)) +
    match s.pc with
    | .checking => 1
    | .looping => 2
    | .notifying => 3
    | .searching _ => 4
    | _ => 0

theorem bit_le (b : Bool) : bit b ≤ 1 := by cases b <;> decide

theorem measure_le (s : State) : measure s ≤ 10 := by
  have h1 := bit_le (s.r.usable && !s.r.queue.key.isEmpty)
  have h2 := bit_le (decide (s.r.event = .opened true))
  unfold measure
  split <;> omega

theorem notify_eq (r : Rz) : (r.notify true).usable = (decide (r.ready ≠ .absent) && !r.zombie) ∧ (r.notify true).queue = r.queue ∧ (r.notify true).event = r.event ∧
    (r.notify true).cache = r.cache ∧ (r.notify true).pending = r.pending ∧ (r.notify true).zombie = r.zombie := by
  rw [Rz.notify, if_pos rfl, setAvailable_true]
  refine ⟨?_, rfl, rfl, rfl, rfl, rfl⟩
  rw [Rz.usable]
  cases hr : r.ready <;> cases ha : r.available <;> cases r.zombie <;> simp [Event.set]

theorem measure_step {s s' : State} {e : Ev} (hi : Inv s) (h : WorkerStep s e s') : measure s' < measure s := by
  cases h with
  | wake r m h => simp [measure, h, bit, Rz.usable]
  | take r m r' q h =>
    obtain ⟨h1, rfl, h2, rfl⟩ := take_some h
    have : (r.usable && !r.queue.key.isEmpty) = true := by simp [h1, h2]
    simp only [measure, this]
    simp [bit]
    omega
  | idle r m r' h =>
    obtain ⟨h1, rfl⟩ := take_none h
    have hb : (r.usable && !r.queue.key.isEmpty) = false := by
      rcases h1 with h1 | h1 <;> simp [h1]
    have hq : ∀ (rd : Event), (({ r with processing := false, pending := [], ready := rd } : Rz).usable && !r.queue.key.isEmpty) = true → rd = (if r.zombie then r.ready else r.ready.set) →
        (r.usable && !r.queue.key.isEmpty) = true := by
      intro rd h hrd
      subst hrd
      simp only [Rz.usable, Bool.and_eq_true, Bool.not_eq_true', decide_eq_true_eq] at h ⊢
      refine ⟨⟨h.1.1, ?_⟩, h.2⟩
      intro hr
      apply h.1.2
      simp [h.1.1, hr, Event.set]
    have hb' : (({ r with processing := false, pending := [], ready := if r.zombie then r.ready else r.ready.set } : Rz).usable && !r.queue.key.isEmpty) = false := by
      cases hx : (({ r with processing := false, pending := [], ready := if r.zombie then r.ready else r.ready.set } : Rz).usable && !r.queue.key.isEmpty) with
      | false => rfl
      | true => rw [hq _ hx rfl] at hb; simp at hb
    simp only [measure, hb, hb']
    simp
  | answer r m q recog file now r' h =>
    obtain ⟨h1, h2, rfl⟩ := store_true h
    have hu := (usable_iff _).1 h2
    have : (((({ r with cache := r.cache.put q.key ⟨file, now, recog, false⟩ } : Rz).setAvailable true).1).usable) = true := by
      rw [setAvailable_true, usable_iff]
      refine ⟨hu.1, ?_⟩
      simp only
      split
      · exact hu.2
      · intro h
        cases hr : r.ready <;> simp_all [Event.set]
    simp only [measure, Bool.false_eq_true, if_false, this, h2]
    simp [setAvailable_true]
  | dropped r m q recog file now r' h => rw [store_false h]; simp [measure]
  | notify r m =>
    obtain ⟨h1, h2, h3, -⟩ := notify_eq r
    have : (r.notify true).usable = r.usable := by rw [h1, Rz.usable, Bool.and_comm]
    simp only [measure, this, h2, h3]
    omega
  | check r m =>
    simp only [measure]
    cases r.zombie <;> simp

theorem works_bound {s s' : State} {tr : List Ev} (hi : Inv s) (h : Works s tr s') : tr.length + measure s' ≤ measure s ∧ Inv s' := by
  induction h with
  | nil s => exact ⟨by simp, hi⟩
  | cons h _ ih =>
    have h1 := measure_step hi h
    obtain ⟨h2, h3⟩ := ih (workerStep_inv hi h)
    exact ⟨by simp only [List.length_cons]; omega, h3⟩

/-- If the worker cannot go on, it waits for a request, or has ended. -/
theorem stopped_iff {s : State} : Stopped s ↔ s.pc = .absent ∨ s.pc = .ended ∨ (s.pc = .waiting ∧ s.r.event ≠ .opened true) := by
  obtain ⟨r, pc, m⟩ := s
  constructor
  · intro h
    cases pc with
    | absent => exact .inl rfl
    | ended => exact .inr (.inl rfl)
    | waiting => exact .inr (.inr ⟨rfl, fun he => h _ _ (.wake r m he)⟩)
    | looping =>
      exfalso
      obtain ⟨x, hx⟩ : ∃ x, r.take = x := ⟨_, rfl⟩
      obtain ⟨r', o⟩ := x
      cases o with
      | none => exact h _ _ (.idle r m r' hx)
      | some q => exact h _ _ (.take r m r' q hx)
    | searching q =>
      exfalso
      obtain ⟨x, hx⟩ : ∃ x, r.store q.key [] .unknown 0 false = x := ⟨_, rfl⟩
      obtain ⟨r', b⟩ := x
      cases b with
      | true => exact h _ _ (.answer r m q .unknown [] 0 r' hx)
      | false => exact h _ _ (.dropped r m q .unknown [] 0 r' hx)
    | notifying => exact absurd (.notify r m) (h _ _)
    | checking => exact absurd (.check r m) (h _ _)
  · rintro h e s' hs
    simp only at h
    cases hs <;> simp_all

theorem stopped_idle {s : State} (hi : Inv s) (h : Stopped s) : ¬ Active s.pc ∧ s.r.event ≠ .opened true ∨ s.r.zombie = true ∧ s.pc = .ended := by
  rcases stopped_iff.1 h with h | h | ⟨h1, h2⟩
  · left
    refine ⟨by rw [h]; simp [Active], ?_⟩
    rw [hi.thread.1 h]; simp
  · exact .inr ⟨hi.ended h, h⟩
  · exact .inl ⟨by rw [h1]; simp [Active], h2⟩

theorem stopped_not_busy {s : State} (hi : Inv s) (h : Stopped s) : s.r.busy = false := by
  have key : s.r.pending = [] ∧ s.r.processing = false := by
    rcases stopped_idle hi h with ⟨h1, h2⟩ | ⟨h1, h2⟩
    · have : ¬ (s.r.pending ≠ [] ∨ s.r.processing = true) := by
        intro hb
        rcases hi.busy hb with h | h
        · exact h1 h
        · exact h2 h
      simp only [not_or] at this
      exact ⟨Decidable.of_not_not this.1, by simpa using this.2⟩
    · refine ⟨(hi.zombie h1).1, ?_⟩
      cases hp : s.r.processing with
      | false => rfl
      | true => have := hi.proc hp; rw [h2] at this; simp [Active] at this
  simp [Rz.busy, key]

/-! Parts of executions -/

theorem run_snoc {s0 s : State} {tr : List Ev} {e : Ev} (h : Run s0 (tr ++ [e]) s) : ∃ s1, Run s0 tr s1 ∧ Step s1 e s := by
  obtain ⟨l, hl⟩ : ∃ l, l = tr ++ [e] := ⟨_, rfl⟩
  rw [← hl] at h
  cases h with
  | nil => simp at hl
  | snoc h hs =>
    obtain ⟨h1, h2⟩ := List.append_inj' hl rfl
    cases h1
    cases h2
    exact ⟨_, h, hs⟩

theorem run_after {s0 : State} {tr : List Ev} {P : List Ev → State → Prop} (h0 : ∀ s, Run s0 tr s → P [] s)
    (hs : ∀ d s e s', Run s0 (tr ++ d) s → P d s → Step s e s' → P (d ++ [e]) s') (d : List Ev) (s : State) (h : Run s0 (tr ++ d) s) : P d s := by
  obtain ⟨n, hn⟩ : ∃ n, d.length = n := ⟨_, rfl⟩
  induction n generalizing d s with
  | zero => rw [List.length_eq_zero_iff.1 hn] at h ⊢; exact h0 s (by simpa using h)
  | succ n ih =>
    rcases List.eq_nil_or_concat d with rfl | ⟨d, e, rfl⟩
    · simp at hn
    · rw [List.concat_eq_append] at h hn ⊢
      rw [← List.append_assoc] at h
      obtain ⟨s1, h1, h2⟩ := run_snoc h
      exact hs d s1 e s h1 (ih d s1 h1 (by simpa using hn)) h2

/-- What a step does to the fields that matter to answers. -/
theorem step_usable {s s' : State} {e : Ev} (h : Step s e s') (hu : s.r.usable = true) (hn : e ≠ .shutdown) : s'.r.usable = true := by
  have hset : ∀ ev : Event, ev ≠ .absent → ev.set ≠ .absent := by intro ev h; cases ev <;> simp_all [Event.set]
  have hreset : ∀ ev : Event, ev ≠ .absent → ev.reset ≠ .absent := by intro ev h; cases ev <;> simp_all [Event.reset]
  rw [usable_iff] at hu ⊢
  cases h with
  | main h =>
    cases h with
    | enqueue r pc q hint now ok r' h =>
      obtain ⟨h1, h2, rfl⟩ := enqueue_true h
      refine ⟨hu.1, ?_⟩
      simp only
      split
      · exact hu.2
      · exact hset _ hu.2
    | refused r pc q hint now ok r' h => rw [enqueue_false h]; exact hu
    | clear r pc now => exact hu
    | refresh r pc => exact ⟨hu.1, hreset _ hu.2⟩
    | waitBegin r pc h => exact hu
    | waitBusy r pc h => exact hu
    | waitReady r pc h => exact hu
    | waitEnd r pc h => exact hu
    | shutdown r pc now r' hz h => exact absurd rfl hn
    | joined r pc h => rw [Rz.close]; split <;> exact hu
  | worker h =>
    cases h with
    | wake r m h => exact hu
    | take r m r' q h => obtain ⟨h1, rfl, h2, rfl⟩ := take_some h; exact hu
    | idle r m r' h =>
      obtain ⟨h1, rfl⟩ := take_none h
      refine ⟨hu.1, ?_⟩
      simp only
      split
      · exact hu.2
      · exact hset _ hu.2
    | answer r m q recog file now r' h =>
      obtain ⟨h1, h2, rfl⟩ := store_true h
      rw [if_neg (by simp), setAvailable_true]
      refine ⟨hu.1, ?_⟩
      simp only
      split
      · exact hu.2
      · exact hset _ hu.2
    | dropped r m q recog file now r' h => rw [store_false h]; exact hu
    | notify r m =>
      obtain ⟨h1, -, -, -, -, h2⟩ := notify_eq r
      have : (r.notify true).usable = r.usable := by rw [h1, Rz.usable, Bool.and_comm]
      exact (usable_iff _).1 (by rw [this]; exact (usable_iff _).2 hu)
    | check r m => exact hu
  | spurious r m => exact hu

/-- What was answered last stays until it is declared to be out of date. -/
theorem step_cache {s s' : State} {e : Ev} {k : List Nat} {c : Cached} (h : Step s e s') (hc : s.r.cache.lookup k = some c) (hi : invalidates e = false)
    (ha : answers k e = false) : s'.r.cache.lookup k = some c := by
  cases h with
  | main h =>
    cases h with
    | enqueue r pc q hint now ok r' h => obtain ⟨h1, h2, rfl⟩ := enqueue_true h; exact hc
    | refused r pc q hint now ok r' h => rw [enqueue_false h]; exact hc
    | clear r pc now => simp [invalidates] at hi
    | refresh r pc => exact hc
    | waitBegin r pc h => exact hc
    | waitBusy r pc h => exact hc
    | waitReady r pc h => exact hc
    | waitEnd r pc h => exact hc
    | shutdown r pc now r' hz h => simp [invalidates] at hi
    | joined r pc h => rw [Rz.close]; split <;> exact hc
  | worker h =>
    cases h with
    | wake r m h => exact hc
    | take r m r' q h => obtain ⟨h1, rfl, h2, rfl⟩ := take_some h; exact hc
    | idle r m r' h => obtain ⟨h1, rfl⟩ := take_none h; exact hc
    | answer r m q recog file now r' h =>
      obtain ⟨h1, h2, rfl⟩ := store_true h
      have : (((if false = true then { r with pending := r.pending.put q.key ⟨file, now, recog, false⟩ } else { r with cache := r.cache.put q.key ⟨file, now, recog, false⟩ } : Rz).setAvailable true).1).cache
          = r.cache.put q.key ⟨file, now, recog, false⟩ := rfl
      simp only
      rw [this, lookup_put, if_neg]
      · exact hc
      · rintro rfl; simp [answers] at ha
    | dropped r m q recog file now r' h => rw [store_false h]; exact hc
    | notify r m => simp only; rw [(notify_eq r).2.2.2.1]; exact hc
    | check r m => exact hc
  | spurious r m => exact hc

/-- The request that is waited for. -/
def Awaited (q : Request) (mid : List Ev) (s : State) : Prop :=
  s.r.queue = q ∨ s.r.queue.key = [] ∧ s.pc = .searching q ∨
    s.r.queue.key = [] ∧ (∀ q', s.pc ≠ .searching q') ∧ ∃ c, s.r.cache.lookup q.key = some c ∧ c.outofdate = false ∧ .answer q c.recog c.file ∈ mid

theorem awaited_same {q : Request} {mid : List Ev} {s s' : State} {e : Ev} (ha : Awaited q mid s) (hq : s'.r.queue = s.r.queue) (hc : s'.r.cache = s.r.cache)
    (hp : ∀ q', s.pc = .searching q' ↔ s'.pc = .searching q') : Awaited q (mid ++ [e]) s' := by
  unfold Awaited at ha ⊢
  rw [hq, hc]
  rcases ha with ha | ⟨h1, h2⟩ | ⟨h1, h2, c, h3, h4, h5⟩
  · exact .inl ha
  · exact .inr (.inl ⟨h1, (hp q).1 h2⟩)
  · exact .inr (.inr ⟨h1, fun q' h => h2 q' ((hp q').2 h), c, h3, h4, List.mem_append_left _ h5⟩)

theorem awaited_step {q : Request} {mid : List Ev} {s s' : State} {e : Ev} (h : Step s e s') (hk : q.key ≠ []) (hu : s.r.usable = true) (hw : waits e = true) (ha : Awaited q mid s) :
    Awaited q (mid ++ [e]) s' := by
  cases h with
  | main h =>
    cases h with
    | enqueue r pc q hint now ok r' h => simp [waits] at hw
    | refused r pc q hint now ok r' h => simp [waits] at hw
    | clear r pc now => simp [waits] at hw
    | refresh r pc => simp [waits] at hw
    | waitBegin r pc h => exact awaited_same ha rfl rfl (fun _ => .rfl)
    | waitBusy r pc h => exact awaited_same ha rfl rfl (fun _ => .rfl)
    | waitReady r pc h => exact awaited_same ha rfl rfl (fun _ => .rfl)
    | waitEnd r pc h => exact awaited_same ha rfl rfl (fun _ => .rfl)
    | shutdown r pc now r' hz h => simp [waits] at hw
    | joined r pc h => simp [waits] at hw
  | worker h =>
    cases h with
    | wake r m h => exact awaited_same ha rfl rfl (by simp)
    | take r m r' q' h =>
      obtain ⟨h1, rfl, h2, rfl⟩ := take_some h
      rcases ha with ha | ⟨h3, -⟩ | ⟨h3, -⟩
      · simp only at ha
        subst ha
        exact .inr (.inl ⟨rfl, rfl⟩)
      · exact absurd h3 h2
      · exact absurd h3 h2
    | idle r m r' h =>
      obtain ⟨h1, rfl⟩ := take_none h
      exact awaited_same ha rfl rfl (by simp)
    | answer r m q' recog file now r' h =>
      obtain ⟨h4, h5, rfl⟩ := store_true h
      rcases ha with ha | ⟨h1, h2⟩ | ⟨h1, h2, -⟩
      · exact .inl ha
      · cases h2
        refine .inr (.inr ⟨h1, by simp, ⟨file, now, recog, false⟩, ?_, rfl, by simp⟩)
        show (r.cache.put q.key ⟨file, now, recog, false⟩).lookup q.key = _
        rw [lookup_put, if_pos rfl]
      · exact absurd rfl (h2 q')
    | dropped r m q' recog file now r' h =>
      rw [store_false h]
      rcases ha with ha | ⟨h1, h2⟩ | ⟨h1, h2, -⟩
      · exact .inl ha
      · cases h2
        exfalso
        simp only at hu
        rw [Rz.store, if_neg hk, hu] at h
        simp at h
      · exact absurd rfl (h2 q')
    | notify r m =>
      have := notify_eq r
      exact awaited_same ha this.2.1 this.2.2.2.1 (by simp)
    | check r m => exact awaited_same ha rfl rfl (by intro q'; simp only; split <;> simp)
  | spurious r m => exact awaited_same ha rfl rfl (by simp)

/-- Only `refresh` forgets that there are new results. -/
theorem step_available {s s' : State} {e : Ev} (h : Step s e s') (ha : s.r.available = true) (hn : ∀ b, e ≠ .refresh b) : s'.r.available = true := by
  cases h with
  | main h =>
    cases h with
    | enqueue r pc q hint now ok r' h => obtain ⟨h1, h2, rfl⟩ := enqueue_true h; rfl
    | refused r pc q hint now ok r' h => rw [enqueue_false h]; exact ha
    | clear r pc now => exact ha
    | refresh r pc => exact absurd rfl (hn _)
    | waitBegin r pc h => exact ha
    | waitBusy r pc h => exact ha
    | waitReady r pc h => exact ha
    | waitEnd r pc h => exact ha
    | shutdown r pc now r' hz h =>
      unfold Rz.shutdown at h
      split at h
      · simp at h
      · simp only [Option.some.injEq] at h; subst h; exact ha
    | joined r pc h => rw [Rz.close]; split <;> exact ha
  | worker h =>
    cases h with
    | wake r m h => exact ha
    | take r m r' q h => obtain ⟨h1, rfl, h2, rfl⟩ := take_some h; exact ha
    | idle r m r' h => obtain ⟨h1, rfl⟩ := take_none h; exact ha
    | answer r m q recog file now r' h => obtain ⟨h1, h2, rfl⟩ := store_true h; rfl
    | dropped r m q recog file now r' h => rw [store_false h]; exact ha
    | notify r m => rw [Rz.notify, if_pos rfl, setAvailable_true]
    | check r m => exact ha
  | spurious r m => exact ha

/-- Only requests and the worker say that there is something new. -/
theorem step_unavailable {s s' : State} {e : Ev} (h : Step s e s') (ha : s.r.available = false) (hn : isRequest e = false ∧ finishes e = false ∧ e ≠ .notify) : s'.r.available = false := by
  cases h with
  | main h =>
    cases h with
    | enqueue r pc q hint now ok r' h => simp [isRequest] at hn
    | refused r pc q hint now ok r' h => rw [enqueue_false h]; exact ha
    | clear r pc now => exact ha
    | refresh r pc => rfl
    | waitBegin r pc h => exact ha
    | waitBusy r pc h => exact ha
    | waitReady r pc h => exact ha
    | waitEnd r pc h => exact ha
    | shutdown r pc now r' hz h =>
      unfold Rz.shutdown at h
      split at h
      · simp at h
      · simp only [Option.some.injEq] at h; subst h; exact ha
    | joined r pc h => rw [Rz.close]; split <;> exact ha
  | worker h =>
    cases h with
    | wake r m h => exact ha
    | take r m r' q h => obtain ⟨h1, rfl, h2, rfl⟩ := take_some h; exact ha
    | idle r m r' h => obtain ⟨h1, rfl⟩ := take_none h; exact ha
    | answer r m q recog file now r' h => simp [finishes] at hn
    | dropped r m q recog file now r' h => rw [store_false h]; exact ha
    | notify r m => simp at hn
    | check r m => exact ha
  | spurious r m => exact ha

end Clink.Recog
