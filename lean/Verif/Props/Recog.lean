import Verif.Proof.Recog

/-! C39 and C40: the background recognizer. -/

namespace Clink.Recog

open Spec

/-! An execution: `git` is requested and waited for. -/

namespace Ex

/-- `git` in `C:`. -/
def git : Request := ⟨[103, 105, 116], [103, 105, 116], [67, 58]⟩

/-- `C:\git`. -/
def file : List Nat := [67, 58, 92, 103, 105, 116]

/-- `go` in `C:`. -/
def go : Request := ⟨[103, 111], [103, 111], [67, 58]⟩

def asked : List (List Nat × Cached) := [(git.key, ⟨[], 7, .unknown, false⟩)]

def known : List (List Nat × Cached) := [(git.key, ⟨file, 9, .executable, false⟩)]

def s1 : State := ⟨{ pending := asked, queue := git, event := .opened true, available := true, ready := .opened true }, .waiting, .free⟩

def s2 : State := ⟨{ pending := asked, queue := git, event := .opened false, available := true, ready := .opened true }, .looping, .free⟩

def s3 : State := ⟨{ pending := asked, event := .opened false, processing := true, available := true, ready := .opened true }, .searching git, .free⟩

def s4 : State := { s3 with main := .polling }

def s5 : State := { s3 with main := .blocked }

def s6 : State := ⟨{ cache := known, pending := asked, event := .opened false, processing := true, available := true, ready := .opened true }, .notifying, .blocked⟩

def s7 : State := { s6 with pc := .looping }

def s8 : State := ⟨{ cache := known, event := .opened false, available := true, ready := .opened true }, .checking, .blocked⟩

def s9 : State := { s8 with main := .polling }

def s10 : State := { s8 with main := .free }

def start : State := .start (.opened false)

theorem run1 : Run start [.request git] s1 := .snoc .nil (.main (.enqueue _ _ git .unknown 7 true _ rfl))

theorem run2 : Run start [.request git, .wake] s2 := .snoc run1 (.worker (.wake _ _ rfl))

theorem run3 : Run start [.request git, .wake, .take git] s3 := .snoc run2 (.worker (.take _ _ _ git rfl))

theorem run4 : Run start [.request git, .wake, .take git, .waitBegin] s4 := .snoc run3 (.main (.waitBegin _ _ rfl))

theorem run5 : Run start [.request git, .wake, .take git, .waitBegin, .waitBusy] s5 := .snoc run4 (.main (.waitBusy _ _ rfl))

theorem run6 : Run start [.request git, .wake, .take git, .waitBegin, .waitBusy, .answer git .executable file] s6 :=
  .snoc run5 (.worker (.answer _ _ git .executable file 9 _ rfl))

theorem run7 : Run start [.request git, .wake, .take git, .waitBegin, .waitBusy, .answer git .executable file, .notify] s7 := .snoc run6 (.worker (.notify _ _))

theorem run8 : Run start [.request git, .wake, .take git, .waitBegin, .waitBusy, .answer git .executable file, .notify, .idle] s8 := .snoc run7 (.worker (.idle _ _ _ rfl))

theorem run9 : Run start [.request git, .wake, .take git, .waitBegin, .waitBusy, .answer git .executable file, .notify, .idle, .waitReady] s9 :=
  .snoc run8 (.main (.waitReady _ _ rfl))

theorem run10 : Run start [.request git, .wake, .take git, .waitBegin, .waitBusy, .answer git .executable file, .notify, .idle, .waitReady, .waitEnd] s10 :=
  .snoc run9 (.main (.waitEnd _ _ rfl))

end Ex

/-! C39: the recognizer does not get stuck. -/

/-- While something is pending or being searched for, the worker can go on. -/
theorem C39_never_orphaned (s0 s : State) (tr : List Ev) (h0 : Start s0) (h : Run s0 tr s) (hb : s.r.busy = true) : ¬ Stopped s := by
  intro hs
  rw [stopped_not_busy (run_inv h0 h) hs] at hb
  simp at hb

/-- The same for a word that is reported as pending. -/
theorem C39_pending (s0 s : State) (tr : List Ev) (h0 : Start s0) (h : Run s0 tr s) (k : List Nat) (x : Recognition × Option (List Nat)) (hf : s.r.find k = (-1, x)) : ¬ Stopped s := by
  refine C39_never_orphaned s0 s tr h0 h ?_
  have := find_pending hf
  simp [Rz.busy, this]

example : Start Ex.start ∧ Run Ex.start [.request Ex.git] Ex.s1 ∧ Ex.s1.r.busy = true ∧ Ex.s1.r.find Ex.git.key = (-1, .unknown, some []) := ⟨.inl rfl, Ex.run1, rfl, rfl⟩

/-- The worker does at most ten steps, if there are no further requests; then nothing is pending. -/
theorem C39_stops (s0 s s' : State) (tr ws : List Ev) (h0 : Start s0) (h : Run s0 tr s) (hw : Works s ws s') : ws.length ≤ 10 ∧ (Stopped s' → s'.r.busy = false) := by
  obtain ⟨h1, h2⟩ := works_bound (run_inv h0 h) hw
  have := measure_le s
  exact ⟨by omega, stopped_not_busy h2⟩

/- Ten steps: a request while another one is searched for. -/
example : ∃ tr s, Run Ex.start tr s ∧ ∃ ws s', Works s ws s' ∧ ws.length = 10 ∧ Stopped s' := by
  refine ⟨_, _, .snoc Ex.run3 (.main (.enqueue _ _ Ex.go .unknown 8 true _ rfl)), _, _,
    .cons (.answer _ _ Ex.git .executable Ex.file 9 _ rfl) (.cons (.notify _ _) (.cons (.take _ _ _ Ex.go rfl) (.cons (.answer _ _ Ex.go .unrecognized [] 10 _ rfl) (.cons (.notify _ _)
      (.cons (.idle _ _ _ rfl) (.cons (.check _ _) (.cons (.wake _ _ rfl) (.cons (.idle _ _ _ rfl) (.cons (.check _ _) (.nil _)))))))))), rfl, ?_⟩
  rw [stopped_iff]
  decide

/-- Waiting ends: if the worker has stopped while the other thread waits, the latter can go on and leaves the function. -/
theorem C39_wait (s0 s : State) (tr : List Ev) (h0 : Start s0) (h : Run s0 tr s) (hs : Stopped s) :
    (s.main = .polling → Step s .waitEnd { s with main := .free }) ∧
    (s.main = .blocked → Step s .waitReady { s with main := .polling } ∧ Step { s with main := .polling } .waitEnd { s with main := .free }) := by
  have hi := run_inv h0 h
  have hb := stopped_not_busy hi hs
  obtain ⟨r, pc, m⟩ := s
  refine ⟨?_, ?_⟩
  · rintro rfl
    exact .main (.waitEnd r pc hb)
  · rintro rfl
    refine ⟨.main (.waitReady r pc ?_), .main (.waitEnd r pc hb)⟩
    rcases stopped_idle hi hs with ⟨h1, h2⟩ | ⟨h1, -⟩
    · rcases hi.blocked rfl with h | h | h
      · exact h
      · exact absurd h h1
      · exact absurd h h2
    · have := ((usable_iff _).1 (hi.inWait (.inr rfl))).1
      rw [h1] at this
      simp at this

example : ∃ tr s, Run Ex.start tr s ∧ Stopped s ∧ s.main = .blocked := by
  refine ⟨_, _, .snoc Ex.run8 (.worker (.check _ _)), ?_, rfl⟩
  rw [stopped_iff]
  decide

/-- What was waited for is known: after a request is accepted and waited for, its answer is reported as current. -/
theorem C39_answer (s0 s : State) (tr mid : List Ev) (q : Request) (h0 : Start s0) (h : Run s0 (tr ++ .request q :: mid ++ [.waitEnd]) s) (hm : ∀ e ∈ mid, waits e = true) :
    ∃ recog file, .answer q recog file ∈ mid ∧ s.r.find q.key = (1, recog, some file) := by
  have key := run_after (s0 := s0) (tr := tr ++ [.request q])
    (P := fun d s => (∀ e ∈ d, waits e = true) → q.key ≠ [] ∧ s.r.usable = true ∧ Awaited q d s) ?_ ?_ mid
  · obtain ⟨s1, h1, h2⟩ := run_snoc h
    have h1' : Run s0 (tr ++ [.request q] ++ mid) s1 := by simpa using h1
    obtain ⟨hk, hu, ha⟩ := key s1 h1' hm
    have hi := run_inv h0 h1'
    cases h2 with
    | worker h => cases h
    | main h =>
      cases h with
      | waitEnd r pc hb =>
        simp only [Rz.busy, Bool.or_eq_false_iff, Bool.not_eq_false', List.isEmpty_iff] at hb
        rcases ha with ha | ⟨-, ha⟩ | ⟨-, -, c, h3, h4, h5⟩
        · exact absurd hb.2 (hi.queue (by simp only at ha; rw [ha]; exact hk))
        · have := (hi.search q ha).1
          rw [hb.1] at this
          simp at this
        · exact ⟨_, _, h5, find_of hu h3 h4⟩
  · intro s hr _
    obtain ⟨s1, h1, h2⟩ := run_snoc hr
    clear hr h
    cases h2 with
    | worker h => cases h
    | main h =>
      cases h with
      | enqueue r pc q hint now ok r' h =>
        have hu := step_usable (.main (.enqueue r pc q hint now ok r' h)) (enqueue_true h).2.1 (by simp)
        obtain ⟨h3, h4, rfl⟩ := enqueue_true h
        exact ⟨h3, hu, .inl rfl⟩
  · intro d s e s' hr hp hs hw
    have hd : ∀ x ∈ d, waits x = true := fun x hx => hw x (List.mem_append_left _ hx)
    have he : waits e = true := hw e (by simp)
    obtain ⟨h1, h2, h3⟩ := hp hd
    exact ⟨h1, step_usable hs h2 (by rintro rfl; simp [waits] at he), awaited_step hs h1 h2 he h3⟩

example : Run Ex.start ([] ++ .request Ex.git :: [.wake, .take Ex.git, .waitBegin, .waitBusy, .answer Ex.git .executable Ex.file, .notify, .idle, .waitReady] ++ [.waitEnd]) Ex.s10 ∧
    (∀ e ∈ [Ev.wake, .take Ex.git, .waitBegin, .waitBusy, .answer Ex.git .executable Ex.file, .notify, .idle, .waitReady], waits e = true) ∧
    Ex.s10.r.find Ex.git.key = (1, .executable, some Ex.file) := ⟨Ex.run10, by decide, rfl⟩

/-- A new answer is noticed: the next time that the line is drawn again, `refresh` says that there are new results, and until
then the event is signalled. -/
theorem C39_refresh (s0 s : State) (tr d : List Ev) (q : Request) (recog : Recognition) (file : List Nat) (h0 : Start s0) (h : Run s0 (tr ++ .answer q recog file :: d) s)
    (hd : ∀ e ∈ d, ∀ b, e ≠ .refresh b) : s.r.ready = .opened true ∧ ∀ b s', Step s (.refresh b) s' → b = true := by
  have key := run_after (s0 := s0) (tr := tr ++ [.answer q recog file]) (P := fun d s => (∀ e ∈ d, ∀ b, e ≠ .refresh b) → s.r.available = true) ?_ ?_ d s (by simpa using h) hd
  · refine ⟨(run_inv h0 h).avail key, ?_⟩
    intro b s' hs
    cases hs with
    | worker h => cases h
    | main h => cases h with
      | refresh r pc => exact key
  · intro s hr _
    obtain ⟨s1, h1, h2⟩ := run_snoc hr
    clear hr h
    cases h2 with
    | main h => cases h
    | worker h => cases h with
      | answer r m q recog file now r' h => obtain ⟨h1, h2, rfl⟩ := store_true h; rfl
  · intro d s e s' _ hp hs hd
    exact step_available hs (hp fun x hx => hd x (List.mem_append_left _ hx)) (hd e (by simp))

example : Run Ex.start ([.request Ex.git, .wake, .take Ex.git, .waitBegin, .waitBusy] ++ .answer Ex.git .executable Ex.file :: [.notify, .idle, .waitReady, .waitEnd]) Ex.s10 ∧
    Step Ex.s10 (.refresh true) ⟨(Ex.s10.r.setAvailable false).1, .checking, .free⟩ := ⟨Ex.run10, .main (.refresh _ _)⟩

/-- Without new requests or answers, nothing new is reported: after `refresh` the next one says that there is nothing new. -/
theorem C39_quiet (s0 s : State) (tr d : List Ev) (b : Bool) (h : Run s0 (tr ++ .refresh b :: d) s) (hd : ∀ e ∈ d, isRequest e = false ∧ finishes e = false ∧ e ≠ .notify) :
    ∀ c s', Step s (.refresh c) s' → c = false := by
  have key := run_after (s0 := s0) (tr := tr ++ [.refresh b]) (P := fun d s => (∀ e ∈ d, isRequest e = false ∧ finishes e = false ∧ e ≠ .notify) → s.r.available = false) ?_ ?_ d s
    (by simpa using h) hd
  · intro c s' hs
    cases hs with
    | worker h => cases h
    | main h => cases h with
      | refresh r pc => exact key
  · intro s hr _
    obtain ⟨s1, h1, h2⟩ := run_snoc hr
    clear hr h
    cases h2 with
    | worker h => cases h
    | main h => cases h with
      | refresh r pc => rfl
  · intro d s e s' _ hp hs hd
    exact step_unavailable hs (hp fun x hx => hd x (List.mem_append_left _ hx)) (hd e (by simp))

example : ∃ s, Run Ex.start ([.request Ex.git, .wake, .take Ex.git, .waitBegin, .waitBusy, .answer Ex.git .executable Ex.file, .notify, .idle, .waitReady, .waitEnd] ++
    .refresh true :: [.check]) s ∧ Step s (.refresh false) ⟨(s.r.setAvailable false).1, s.pc, s.main⟩ := by
  have h1 : Run Ex.start [.request Ex.git, .wake, .take Ex.git, .waitBegin, .waitBusy, .answer Ex.git .executable Ex.file, .notify, .idle, .waitReady, .waitEnd, .refresh true]
      ⟨(Ex.s10.r.setAvailable false).1, .checking, .free⟩ := .snoc Ex.run10 (.main (.refresh _ _))
  exact ⟨_, .snoc h1 (.worker (.check _ _)), .main (.refresh _ _)⟩

/-- Shutting down ends: if the worker has stopped while the other thread joins it, the worker has ended (or there is none). -/
theorem C39_shutdown (s0 s : State) (tr : List Ev) (h0 : Start s0) (h : Run s0 tr s) (hj : s.main = .joining) (hs : Stopped s) :
    Step s .joined { s with r := s.r.close, main := .free } := by
  have hi := run_inv h0 h
  obtain ⟨r, pc, m⟩ := s
  simp only at hj
  subst hj
  refine .main (.joined r pc ?_)
  rcases stopped_iff.1 hs with h | h | ⟨h1, h2⟩
  · exact .inl h
  · exact .inr h
  · exact absurd ((hi.zombie (hi.joining rfl)).2.2 h1) h2

/-! A second call. -/

namespace Ex

/-- After a request, the recognizer is shut down. -/
def ended : State := ⟨{ event := .closed, zombie := true, available := true, ready := .opened true }, .ended, .free⟩

theorem runEnded : Run start [.request git, .shutdown, .wake, .idle, .check, .joined] ended := by
  have h1 : Run start [.request git, .shutdown] ⟨{ event := .opened true, zombie := true, available := true, ready := .opened true }, .waiting, .joining⟩ :=
    .snoc run1 (.main (.shutdown _ _ 8 _ rfl rfl))
  have h2 : Run start [.request git, .shutdown, .wake] ⟨{ event := .opened false, zombie := true, available := true, ready := .opened true }, .looping, .joining⟩ :=
    .snoc h1 (.worker (.wake _ _ rfl))
  have h3 : Run start [.request git, .shutdown, .wake, .idle] ⟨{ event := .opened false, zombie := true, available := true, ready := .opened true }, .checking, .joining⟩ :=
    .snoc h2 (.worker (.idle _ _ _ rfl))
  have h4 : Run start [.request git, .shutdown, .wake, .idle, .check] ⟨{ event := .opened false, zombie := true, available := true, ready := .opened true }, .ended, .joining⟩ :=
    .snoc h3 (.worker (.check _ _))
  exact .snoc h4 (.main (.joined _ _ (.inr rfl)))

end Ex

example : ∃ tr s, Run Ex.start tr s ∧ s.main = .joining ∧ Stopped s := by
  obtain ⟨s, h, hs⟩ := run_snoc (tr := [.request Ex.git, .shutdown, .wake, .idle, .check]) Ex.runEnded
  refine ⟨_, s, h, ?_⟩
  cases hs with
  | worker h => cases h
  | main h =>
    generalize he : Ex.ended = x at h
    cases h with
    | joined r pc hp => exact ⟨rfl, stopped_iff.2 (by rcases hp with hp | hp <;> simp [hp])⟩

/-- If `shutdown` is called again, it signals a handle that is closed (app/src/loader/testbed.cpp:224 and 340 call it twice). -/
theorem C39_shutdown_twice : ∃ tr s, Run Ex.start tr s ∧ s.main = .free ∧ ∀ now, s.r.shutdown now = none :=
  ⟨_, _, Ex.runEnded, rfl, fun _ => rfl⟩

/-! C40: what is reported as current. -/

/-- What is reported as current for a word was found for that word: it was requested, taken by the worker and found, and since
then nothing was declared to be out of date. -/
theorem C40_answer (s0 s : State) (tr : List Ev) (h0 : Start s0) (h : Run s0 tr s) (k : List Nat) (recog : Recognition) (file : Option (List Nat)) (hf : s.r.find k = (1, recog, file)) :
    ∃ q f between, file = some f ∧ q.key = k ∧ History tr q recog f between := by
  obtain ⟨c, hc, ho, hx⟩ := find_one hf
  simp only [Prod.mk.injEq] at hx
  obtain ⟨q, between, h1, h2⟩ := (run_tinv h0 h).cache k c hc ho
  exact ⟨q, c.file, between, hx.2, h1, by rw [hx.1]; exact h2⟩

/-- If nothing is declared to be out of date while the worker searches, then what is reported as current was requested after
the last time. -/
theorem C40_current (s0 s : State) (tr : List Ev) (h0 : Start s0) (h : Run s0 tr s) (hn : NoRace tr) (k : List Nat) (x : Recognition × Option (List Nat)) (hf : s.r.find k = (1, x)) :
    ∃ q a b, tr = a ++ .request q :: b ∧ q.key = k ∧ ∀ e ∈ b, invalidates e = false := by
  obtain ⟨q, f, between, -, h2, a, b, d, ht, hb, hbt, hd⟩ := C40_answer s0 s tr h0 h k x.1 x.2 hf
  refine ⟨q, a, b ++ .take q :: between ++ .answer q x.1 f :: d, by rw [ht]; simp, h2, ?_⟩
  intro e he
  simp only [List.append_assoc, List.cons_append, List.mem_append, List.mem_cons] at he
  rcases he with he | rfl | he | rfl | he
  · exact (hb e he).1
  · rfl
  · cases hi : invalidates e with
    | false => rfl
    | true =>
      obtain ⟨l1, l2, rfl⟩ := List.append_of_mem he
      obtain ⟨f', hf1, hf2⟩ := hn (a ++ .request q :: b) q l1 (l2 ++ .answer q x.1 f :: d) e (by rw [ht]; simp) hi
      rw [(hbt f' (List.mem_append_left _ hf1)).2] at hf2
      simp at hf2
  · rfl
  · exact (hd e he).1

example : Ex.s10.r.find Ex.git.key = (1, .executable, some Ex.file) ∧
    NoRace [.request Ex.git, .wake, .take Ex.git, .waitBegin, .waitBusy, .answer Ex.git .executable Ex.file, .notify, .idle, .waitReady, .waitEnd] := by
  refine ⟨rfl, ?_⟩
  intro a q b c e h he
  have : e ∈ [Ev.request Ex.git, .wake, .take Ex.git, .waitBegin, .waitBusy, .answer Ex.git .executable Ex.file, .notify, .idle, .waitReady, .waitEnd] := by rw [h]; simp
  simp only [List.mem_cons, List.not_mem_nil, or_false] at this
  rcases this with rfl | rfl | rfl | rfl | rfl | rfl | rfl | rfl | rfl | rfl <;> simp [invalidates] at he

/-- An answer is reported as current until it is declared to be out of date or there is a newer one. -/
theorem C40_found (s0 s : State) (tr d : List Ev) (q : Request) (recog : Recognition) (file : List Nat) (h : Run s0 (tr ++ .answer q recog file :: d) s)
    (hd : ∀ e ∈ d, invalidates e = false ∧ answers q.key e = false) : s.r.find q.key = (1, recog, some file) := by
  have key := run_after (s0 := s0) (tr := tr ++ [.answer q recog file])
    (P := fun d s => (∀ e ∈ d, invalidates e = false ∧ answers q.key e = false) → s.r.usable = true ∧ ∃ now, s.r.cache.lookup q.key = some ⟨file, now, recog, false⟩)
    ?_ ?_ d s (by simpa using h) hd
  · obtain ⟨h1, now, h2⟩ := key
    exact find_of h1 h2 rfl
  · intro s hr _
    obtain ⟨s1, h1, h2⟩ := run_snoc hr
    clear hr h
    cases h2 with
    | main h => cases h
    | worker h => cases h with
      | answer r m q recog file now r' h =>
        have hu := step_usable (.worker (.answer r m q recog file now r' h)) (store_true h).2.1 (by simp)
        obtain ⟨h1, h2, rfl⟩ := store_true h
        refine ⟨hu, now, ?_⟩
        show (r.cache.put q.key ⟨file, now, recog, false⟩).lookup q.key = _
        rw [lookup_put, if_pos rfl]
  · intro d s e s' _ hp hs hd
    obtain ⟨h1, now, h2⟩ := hp fun x hx => hd x (List.mem_append_left _ hx)
    have he := hd e (by simp)
    exact ⟨step_usable hs h1 (by rintro rfl; simp [invalidates] at he), now, step_cache hs h2 he.1 he.2⟩

example : Run Ex.start ([.request Ex.git, .wake, .take Ex.git, .waitBegin, .waitBusy] ++ .answer Ex.git .executable Ex.file :: [.notify, .idle, .waitReady, .waitEnd]) Ex.s10 ∧
    (∀ e ∈ [Ev.notify, .idle, .waitReady, .waitEnd], invalidates e = false ∧ answers Ex.git.key e = false) := ⟨Ex.run10, by decide⟩

/-- Nothing is reported as current right after everything was declared to be out of date. -/
theorem C40_invalidated (s0 s : State) (tr d : List Ev) (h0 : Start s0) (h : Run s0 (tr ++ .invalidate :: d) s) (k : List Nat) (hd : ∀ e ∈ d, answers k e = false)
    (x : Recognition × Option (List Nat)) : s.r.find k ≠ (1, x) := by
  intro hf
  obtain ⟨q, f, between, -, h2, a, b, d', ht, -, -, hd'⟩ := C40_answer s0 s _ h0 h k x.1 x.2 hf
  subst h2
  -- the answer comes before or after the invalidation
  rcases List.append_eq_append_iff.1 ht with ⟨l, h1, h2⟩ | ⟨l, h1, h2⟩
  · cases l with
    | nil => simp at h2
    | cons y l =>
      simp only [List.cons_append, List.cons.injEq] at h2
      have := hd (.answer q x.1 f) (by rw [h2.2]; simp)
      simp [answers] at this
  · cases l with
    | nil => simp at h2
    | cons y l =>
      simp only [List.cons_append, List.cons.injEq] at h2
      have := (hd' .invalidate (by rw [h2.2]; simp)).1
      simp [invalidates] at this

/-- The full statement is false: if everything is declared to be out of date while the worker searches, the result is stored as
current although it was requested before. -/
theorem C40_stale : ∃ s, Run Ex.start [.request Ex.git, .wake, .take Ex.git, .invalidate, .answer Ex.git .executable Ex.file] s ∧ s.r.find Ex.git.key = (1, .executable, some Ex.file) := by
  have h4 : Run Ex.start [.request Ex.git, .wake, .take Ex.git, .invalidate]
      ⟨{ event := .opened false, processing := true, available := true, ready := .opened true }, .searching Ex.git, .free⟩ := .snoc Ex.run3 (.main (.clear _ _ 8))
  exact ⟨_, .snoc h4 (.worker (.answer _ _ Ex.git .executable Ex.file 9 _ rfl)), rfl⟩

end Clink.Recog
