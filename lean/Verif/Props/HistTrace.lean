import Verif.Proof.HistTrace

/-! C33, C34: several sessions. -/

namespace Clink.Hist

open Spec

/-- C34: whatever the sessions did, a line of the master file that was not deleted is among the lines that a session loads,
unless this session itself wanted to remove a line with this text. -/
theorem C34_view (junk : List Nat) (s0 s : St) (ops : List Op) (hn : 49 < junk.length) (h0 : Start junk.length s0) (hr : Run junk s0 ops s)
    (id : Nat) (d : Db) (v : View) (hd : s.dbs id = some (d, v)) (hm : d.master = true) :
    ∃ v', s.w.view junk d = some v' ∧ ∀ o t, (o, t) ∈ linesOf s.w.master → ¬ IsDeleted t → (true, o, t) ∈ v' ∨ t ∈ s.chosen id := by
  have hi := run_inv hn hr (start_inv h0)
  have hid := (hi.ids id d v hd).1
  have he : s.w.view junk d = (readOpt junk (s.w.masterBank d)).bind fun m => (readOpt junk (s.w.sessionBank d)).bind fun l =>
      some (m.map (fun e => (true, e.offset, e.text)) ++ l.map (fun e => (false, e.offset, e.text))) := by
    unfold World.view
    cases s.w.masterBank d <;> cases s.w.sessionBank d <;> rfl
  -- the session bank can be read
  obtain ⟨ls, hls⟩ : ∃ ls, readOpt junk (s.w.sessionBank d) = some ls := by
    cases hb : s.w.sessionBank d with
    | none => exact ⟨[], rfl⟩
    | some b =>
      obtain ⟨-, b2, b3⟩ := sessionBank_facts hb
      have hf := hi.getD (by omega) d.id
      rw [← b3] at hf
      obtain ⟨es, h3, -⟩ := C30_read junk b.lines [] hf.small hf.complete hf.fits
      refine ⟨es, ?_⟩
      rw [readOpt, Bank.read, Bank.hidden, b2]
      exact h3
  -- the master bank
  have hmb : s.w.masterBank d = some ⟨s.w.master, if d.removals then (s.w.sess d.id).removals else none⟩ := by rw [World.masterBank, if_pos hm]
  obtain ⟨rs, hrs, hmay⟩ : ∃ rs, Bank.hidden ⟨s.w.master, if d.removals then (s.w.sess d.id).removals else none⟩ = some rs ∧ ∀ o ∈ rs, May (· ∈ s.chosen id) s.w.master o := by
    rw [Bank.hidden]
    simp only
    cases hx : (if d.removals then (s.w.sess d.id).removals else none) with
    | none => exact ⟨[], rfl, by simp⟩
    | some r =>
      have hr1 : (s.w.sess id).removals = some r := by
        rw [← hid]
        split at hx
        · exact hx
        · simp at hx
      obtain ⟨g1, g2⟩ := hi.removals id r hr1
      rcases g2.read g1 hi.tagged with m | ⟨tag, os, -, -, -, m1, m2⟩
      · exact ⟨[], by rw [m]; rfl, by simp⟩
      · exact ⟨good os, by rw [m1]; rfl, fun o ho => m2 o (List.mem_filter.1 ho).1⟩
  obtain ⟨es, h3, -, h4⟩ := C30_read junk s.w.master rs hi.master.small hi.master.complete hi.master.fits
  have hread : readOpt junk (s.w.masterBank d) = some es := by
    rw [hmb, readOpt, Bank.read, hrs, Option.bind_some]; exact h3
  refine ⟨_, by rw [he, hread, hls]; rfl, ?_⟩
  intro o t hot hdel
  by_cases ho : o ∈ rs
  · obtain ⟨u, hu, hud⟩ := hmay o ho
    have := line_unique hot hu
    subst this
    rcases hud with hud | hud
    · exact absurd hud hdel
    · exact .inr hud
  · left
    have hv : (o, t) ∈ visible rs (linesOf s.w.master) := List.mem_filter.2 ⟨hot, by simp [hdel, ho]⟩
    rw [← h4] at hv
    obtain ⟨e, he1, he2⟩ := List.mem_map.1 hv
    simp only [Prod.mk.injEq] at he2
    refine List.mem_append_left _ (List.mem_map.2 ⟨e, he1, ?_⟩)
    rw [he2.1, he2.2]

/-- C34: a step that does not clear or compact leaves each line of the master file where it is, or marks it as deleted.  A
line that it marks has a text that some session wanted to remove. -/
theorem C34_deleted (junk : List Nat) (s0 s s' : St) (ops : List Op) (op : Op) (hn : 49 < junk.length) (h0 : Start junk.length s0) (hr : Run junk s0 ops s)
    (hs : Step junk s op s') (hsz : Sizes s'.w) (ho : ∀ id, op ≠ .clear id) (hc : ∀ id l u, op ≠ .compact id l u) (o : Nat) (t : List Nat)
    (h : (o, t) ∈ linesOf s.w.master) (hd : ¬ IsDeleted t) :
    (o, t) ∈ linesOf s'.w.master ∨ ((∃ t', (o, t') ∈ linesOf s'.w.master ∧ IsDeleted t') ∧ ∃ i, t ∈ s'.chosen i) := by
  have hi := run_inv hn hr (start_inv h0)
  by_cases hre : ∃ id m, op = .reap id m
  · cases hs with
    | reap id d w' hw =>
      obtain ⟨-, r2, -⟩ := reap_step (by omega) hi hw hsz
      obtain ⟨t', h1, h2⟩ := r2.lines _ h
      rcases h2 with rfl | ⟨h2, h3 | h3⟩
      · exact .inl h1
      · exact absurd h3 hd
      · exact .inr ⟨⟨t', h1, h2⟩, id, h3⟩
    | _ => simp at hre
  · simp only [not_exists] at hre
    have he := step_effect hn hi hs hsz ho hc (fun id m he => hre id m he)
    obtain ⟨t', h1, h2⟩ := he.master.lines _ h
    rcases h2 with rfl | ⟨h2, h3 | h3⟩
    · exact .inl h1
    · exact absurd h3 hd
    · refine .inr ⟨⟨t', h1, h2⟩, ?_⟩
      cases hs with
      | removeMaster id d v line w' hd h => cases h3; exact ⟨id, by simp [St.next]⟩
      | removeSession id d v line w' hd h => cases h3; exact ⟨id, by simp [St.next]⟩
      | removeEntry id d v master o text hd hin => cases h3; exact ⟨id, by simp [St.next]⟩
      | _ => exact absurd h3 (by simp [Wants])

/-- C34: after compaction a session waits to remove a line only if it waited to remove it before: the line has the same text
and moved to another offset. -/
theorem C34_compact (junk : List Nat) (s0 s : St) (ops : List Op) (hn : 49 < junk.length) (h0 : Start junk.length s0) (hr : Run junk s0 ops s)
    (d d' : Db) (limit : Nat) (uniq : Bool) (tag ids : List Nat) (w' : World) (ht : Fresh s tag) (h : s.w.compact junk d limit uniq tag ids = some (w', d')) (hsz : Sizes w')
    (i k : Nat) (hp : Pending w' i k) : ∃ o t, Pending s.w i o ∧ (o, t) ∈ linesOf s.w.master ∧ (k, t) ∈ linesOf w'.master := by
  have hi := run_inv hn hr (start_inv h0)
  unfold World.compact at h
  split at h
  · cases h
    obtain ⟨t, ht', -⟩ := remOk_pending (fun r h => (hi.removals i r h).2) hp
    exact ⟨k, t, hp, ht', ht'⟩
  · have h49 := ht.valid.2.2
    cases hc : collectRemovals s.w ids with
    | none => rw [hc] at h; simp at h
    | some rs =>
      obtain ⟨f, remap, old, new, q1, ⟨body, q2⟩, q3, q4, q5, q6, q7⟩ := C35_remap junk s.w.master tag limit uniq hi.master ht.valid (by omega)
      rw [hc, q1] at h
      simp only [Option.bind_eq_bind, Option.bind_some, Option.some.injEq, Prod.mk.injEq] at h
      obtain ⟨rfl, rfl⟩ := h
      have hx : (extractCtag 51 f).getD [] = tag := by rw [q2, extract_tag ht.valid _ (by omega)]; rfl
      rw [hx] at hsz hp ⊢
      obtain ⟨w1, w2⟩ := writeRemovals_spec tag remap rs { s.w with master := f }
      simp only at w1 w2
      have hsm := hsz.master
      rw [w1] at hsm ⊢
      obtain ⟨r, tag', os, b, p1, p2, p3, p4, p5⟩ := hp
      rw [w1, q2] at p4
      have := tag_unique ht.valid p2 p4
      subst this
      rcases (w2 i).2.2 with k1 | ⟨os1, k1, k2⟩
      · exfalso
        rw [k1] at p1
        obtain ⟨b', hb'⟩ := removals_prefix p3
        exact ht.removals i r p1 b' hb'
      · rw [k2] at p1
        cases p1
        obtain ⟨r0, c1, c2⟩ := collect_mem ids hc _ k1
        obtain ⟨l1, l2⟩ := hi.removals i r0 c1
        rcases l2.read l1 hi.tagged with m | ⟨tag2, os2, n1, ⟨body2, n2⟩, n3, m1, m2⟩
        · rw [m] at c2; simp at c2
        · rw [m1] at c2
          simp only [Option.some.injEq, Sum.inr.injEq] at c2
          have hsub : ∀ x ∈ os1, x ∈ os2 := by
            intro x hx
            rw [← c2] at hx
            exact (List.mem_filter.1 hx).1
          have hb := (remOk_new ht.valid q4 q5 q6 q7 hsm (fun x hx => m2 x (hsub x hx))).2
          obtain ⟨-, rfl⟩ := removals_unique p2 p2 p3 (newRemovals_is hb)
          obtain ⟨o1, ho1, hk1⟩ := List.mem_filterMap.1 p5
          have hz := lookup_mem _ hk1
          rw [q7] at hz
          obtain ⟨t, z1, z2⟩ := zip_texts old new q6 hz
          exact ⟨o1, t, ⟨r0, tag2, os2, body2, c1, n1, n3, n2, hsub o1 ho1⟩, q4.subset z1, by rw [q5]; exact List.mem_cons_of_mem _ z2⟩

/-- C33: a line that is kept stays, whatever the sessions do, until a session removes a line with this text, the history is
cleared, or compaction drops lines. -/
theorem C33_kept (junk : List Nat) (s0 s s' : St) (ops ops' : List Op) (t : List Nat) (hn : 49 < junk.length) (h0 : Start junk.length s0) (hr : Run junk s0 ops s)
    (hr' : Run junk s ops' s') (hk : ∀ op ∈ ops', Keeping false t op) (hd : ¬ IsDeleted t) (hp : Kept t s.w) : Kept t s'.w := by
  have hi := run_inv hn hr (start_inv h0)
  clear hr h0
  induction hr' with
  | nil s => exact hp
  | cons h hs _ ih =>
    exact ih (fun op ho => hk op (by simp [ho])) (step_kept hn hi h hs (hk _ (by simp)) hd hp) (step_inv hn hi h hs)

/-- The same if duplicates are dropped, but for lines that no session ever wanted to remove. -/
theorem C33_present (junk : List Nat) (s0 s s' : St) (ops ops' : List Op) (t : List Nat) (hn : 49 < junk.length) (h0 : Start junk.length s0) (hr : Run junk s0 ops s)
    (hr' : Run junk s ops' s') (hk : ∀ op ∈ ops', Keeping true t op) (hd : ¬ IsDeleted t) (hch : ∀ i, t ∉ s'.chosen i) (hp : Present t s.w) : Present t s'.w := by
  have hi := run_inv hn hr (start_inv h0)
  clear hr h0
  have hmono : ∀ {s s' : St} {ops : List Op}, Run junk s ops s' → ∀ i, ∀ t ∈ s.chosen i, t ∈ s'.chosen i := by
    intro s s' ops h
    induction h with
    | nil s => exact fun _ _ h => h
    | cons h _ _ ih => exact fun i t ht => ih i t (step_chosen h i t ht)
  induction hr' with
  | nil s => exact hp
  | cons h hs hrest ih =>
    refine ih (fun op ho => hk op (by simp [ho])) hch (step_present hn hi h hs (hk _ (by simp)) hd ?_ hp) (step_inv hn hi h hs)
    intro i ht
    exact hch i (hmono hrest i t (step_chosen h i t ht))

/-- A line is kept after it was added. -/
theorem C33_added (junk : List Nat) (s0 s s' : St) (ops : List Op) (id : Nat) (line : List Nat) (hn : 49 < junk.length) (h0 : Start junk.length s0) (hr : Run junk s0 ops s)
    (hs : Step junk s (.append id line) s') (hsz : Sizes s'.w) (hopen : ∀ d v, s.dbs id = some (d, v) → d.master = true ∨ d.session = true) : Kept line s'.w := by
  have hi := run_inv hn hr (start_inv h0)
  have he := step_effect hn hi hs hsz (by simp) (by simp) (by simp)
  cases hs with
  | append _ d v stamp _ hd hl hln hst hsn =>
    obtain ⟨hid, -⟩ := hi.ids id d v hd
    subst hid
    have hmem : ∀ f, IsFile junk.length f → (put stamp line f).length ≤ 2 ^ 29 - 1 → ∃ o, f.length ≤ o ∧ (o, line) ∈ linesOf (put stamp line f) := by
      intro f hf hb
      obtain ⟨-, o, h1, h2⟩ := put_spec hf hl hln hst hsn hb
      refine ⟨o, h1, ?_⟩
      have : (o, line) ∈ visible [] (linesOf (put stamp line f)) := by rw [h2]; simp
      exact (List.mem_filter.1 this).1
    by_cases hm : d.master = true ∧ ¬ d.session = true
    · have ha : s.w.append d stamp line = { s.w with master := put stamp line s.w.master } := by
        unfold World.append; rw [if_pos hm]; rfl
      simp only [St.next] at hsz he ⊢
      rw [ha] at hsz he ⊢
      obtain ⟨o, h1, h2⟩ := hmem _ hi.master hsz.master
      refine .inl ⟨o, h2, ?_⟩
      intro i hp
      rcases he.pending i o hp with hp | ⟨u, hu, -⟩
      · obtain ⟨u, hu, -⟩ := remOk_pending (fun r h => (hi.removals i r h).2) hp
        have := linesOf_bound hu
        simp only at this
        omega
      · have := linesOf_bound hu
        simp only at this
        omega
    · have hses : d.session = true := by
        rcases hopen d v hd with h | h
        · cases hh : d.session with
          | true => rfl
          | false => exact absurd ⟨h, by simp [hh]⟩ hm
        · exact h
      have hnew : ((s.w.append d stamp line).sess d.id).lines = some (put stamp line ((s.w.sess d.id).lines.getD [])) := by
        unfold World.append
        rw [if_neg hm]
        simp only [World.sessionBank, if_pos hses, World.putSession, World.setSess, if_true]
        rfl
      obtain ⟨o, h1, h2⟩ := hmem _ (hi.getD (by omega) d.id) (hsz.lines d.id _ hnew)
      exact .inr ⟨d.id, _, o, hnew, h2⟩

/-! An execution: session 1 removes the second `aa`, session 2 compacts and drops duplicates, session 1 ends and is collected. -/

namespace Trace1

def junk : List Nat := List.replicate 64 0

def aa : List Nat := [97, 97]

def bb : List Nat := [98, 98]

/-- `aa`, `bb`, `aa`. -/
def s0 : St := ⟨⟨tag1 ++ [10] ++ aa ++ [10] ++ bb ++ [10] ++ aa ++ [10], fun _ => {}⟩, fun _ => none, fun _ => []⟩

theorem fits64 {f : List Nat} (h : f.length < 64) : Fits junk.length f := by
  intro w hw _
  have := hw.length_le
  rw [junk, List.length_replicate]; omega

def s1 : St := s0.next (s0.w.begin 1).1 1 (some ((s0.w.begin 1).2, [])) []

def d1 : Db := ⟨1, true, false, false, tag1⟩

def s2 : St := s1.next s1.w 1 (some (d1, [])) []

def d2 : Db := ⟨1, true, true, true, tag1⟩

def s3 : St := s2.next (s2.w.openSession d1 true).1 1 (some ((s2.w.openSession d1 true).2, [])) []

def v1 : View := [(true, 8, aa), (true, 11, bb), (true, 14, aa)]

def s4 : St := s3.next s3.w 1 (some (s3.w.reload d2, v1)) []

/-- Session 1 wants to remove the second `aa`. -/
def s5 : St := s4.next (s4.w.removeId d2 true 14 true).1 1 (some (d2, v1)) [aa]

def s6 : St := s5.next (s5.w.begin 2).1 2 (some ((s5.w.begin 2).2, [])) []

def d3 : Db := ⟨2, true, false, false, tag1⟩

def s7 : St := s6.next s6.w 2 (some (d3, [])) []

/-- Session 2 drops duplicates. -/
def s8 (uniq : Bool) : St := s7.next
  (writeRemovals tag2 (if uniq then [(11, 8), (14, 11)] else [(8, 8), (11, 11), (14, 14)]) [(1, [14])]
    { s7.w with master := tag2 ++ [10] ++ (if uniq then [] else aa ++ [10]) ++ bb ++ [10] ++ aa ++ [10] }) 2 (some ({ d3 with ctag := tag2 }, [])) []

/-- Session 1 ends. -/
def s9 (uniq : Bool) : St := (s8 uniq).next ((s8 uniq).w.finish d2).1 1 none []

/-- Its files are collected by session 2. -/
def s10 (uniq : Bool) : St := { s9 uniq with
  w := { (s9 uniq).w with master := tag2 ++ [10] ++ (if uniq then [] else aa ++ [10]) ++ bb ++ [10] ++ [124, 97] ++ [10] }.setSess 1 {} }

theorem start : Start junk.length s0 := by
  refine ⟨⟨?_, fits64 (by decide), by decide⟩, ⟨tag1, aa ++ [10] ++ bb ++ [10] ++ aa ++ [10], ⟨⟨[49], rfl⟩, by decide, by decide⟩, by decide⟩, fun _ => rfl, fun _ => rfl⟩
  intro c h
  have h' : some 10 = some c := h
  cases h'
  exact .inr (.inl rfl)

/-- For states with the sessions 1 and 2. -/
theorem sizes {w : World} (h : ∀ i, i ≠ 1 → i ≠ 2 → w.sess i = {}) (hm : w.master.length ≤ 1000)
    (h1 : ∀ i ∈ [1, 2], ((w.sess i).lines.getD []).length ≤ 1000 ∧ ((w.sess i).removals.getD []).length ≤ 1000) : Sizes w := by
  have key : ∀ i, ((w.sess i).lines.getD []).length ≤ 1000 ∧ ((w.sess i).removals.getD []).length ≤ 1000 := by
    intro i
    by_cases e1 : i = 1
    · exact h1 i (by simp [e1])
    · by_cases e2 : i = 2
      · exact h1 i (by simp [e2])
      · rw [h i e1 e2]; simp
  refine ⟨by omega, fun i f hf => ?_, fun i f hf => ?_⟩
  · have := (key i).1; rw [hf] at this; simp at this; omega
  · have := (key i).2; rw [hf] at this; simp at this; omega

theorem ne_tag {f tag : List Nat} (h : f.take tag.length ≠ tag) (body : List Nat) : f ≠ tag ++ [10] ++ body := by
  intro he
  apply h
  rw [he, List.append_assoc, List.take_left]

theorem removeId_other (w : World) (d : Db) (master guard : Bool) (o i : Nat) (h : i ≠ d.id) : (w.removeId d master o guard).1.sess i = w.sess i := by
  have h1 : ∀ b, (w.putMaster d b).sess i = w.sess i := by
    intro b; unfold World.putMaster; split
    · simp [World.setSess, h]
    · rfl
  have h2 : ∀ b, (w.putSession d b).sess i = w.sess i := by intro b; simp [World.putSession, World.setSess, h]
  unfold World.removeId
  split
  · rfl
  · split
    · rfl
    · cases master
      · exact h2 _
      · exact h1 _

theorem supp4 : ∀ i, i ≠ 1 → i ≠ 2 → s4.w.sess i = {} := fun i h1 _ => by simp [s4, s3, s2, s1, s0, d1, St.next, World.begin, World.openSession, World.setSess, h1]

theorem supp5 : ∀ i, i ≠ 1 → i ≠ 2 → s5.w.sess i = {} := fun i h1 h2 => (removeId_other s4.w d2 true true 14 i h1).trans (supp4 i h1 h2)

theorem supp6 : ∀ i, i ≠ 1 → i ≠ 2 → s6.w.sess i = {} := fun i h1 h2 => by
  rw [← supp5 i h1 h2]; simp [s6, St.next, World.begin, World.setSess, h2]

theorem supp8 (u : Bool) : ∀ i, i ≠ 1 → i ≠ 2 → (s8 u).w.sess i = {} := fun i h1 h2 => by
  rw [← supp6 i h1 h2]; simp [s8, s7, St.next, writeRemovals, World.setSess, h1]

theorem supp9 (u : Bool) : ∀ i, i ≠ 1 → i ≠ 2 → (s9 u).w.sess i = {} := fun i h1 h2 => by
  rw [← supp8 u i h1 h2]; simp [s9, St.next, World.finish, World.setSess, d2, h1]

theorem run5 : Run junk s0 [.begin 1, .openMaster 1, .openSession 1, .load 1, .removeEntry 1 aa] s5 := by
  refine .cons (.begin s0 1 rfl) ?_ (.cons (.openMaster s1 1 _ _ true tag1 s1.w d1 rfl ?_) ?_ (.cons (.openSession s2 1 _ _ true rfl rfl) ?_ (.cons (.load s3 1 d2 _ v1 rfl ?_) ?_
    (.cons (.removeEntry s4 1 d2 v1 true 14 aa rfl (by decide)) ?_ (.nil _)))))
  · exact sizes (fun i h1 h2 => by simp [s0, St.next, World.begin, World.setSess, h1]) (by decide) (by decide)
  · have : extractCtag 51 s1.w.master = some tag1 := by decide +kernel
    simp only [World.openMaster, this]; rfl
  · exact sizes (fun i h1 h2 => by simp [s1, s0, St.next, World.begin, World.setSess, h1]) (by decide) (by decide)
  · exact sizes supp4 (by decide +kernel) (by decide +kernel)
  · decide +kernel
  · exact sizes supp4 (by decide +kernel) (by decide +kernel)
  · exact sizes supp5 (by decide +kernel) (by decide +kernel)

theorem fresh7 : Fresh s7 tag2 := by
  refine ⟨⟨⟨[50], rfl⟩, by decide, by decide⟩, ne_tag (by decide +kernel), ?_, ?_⟩
  · intro i r hr
    have key : ∀ i ∈ [1, 2], ∀ r ∈ (s7.w.sess i).removals, r.take tag2.length ≠ tag2 := by decide +kernel
    by_cases h1 : i = 1
    · exact ne_tag (key i (by simp [h1]) r hr)
    · by_cases h2 : i = 2
      · exact ne_tag (key i (by simp [h2]) r hr)
      · rw [show s7.w = s6.w from rfl, supp6 i h1 h2] at hr
        simp at hr
  · intro i d v h
    have key : ∀ i ∈ [1, 2], ∀ p ∈ s7.dbs i, p.1.ctag ≠ tag2 := by decide +kernel
    by_cases h1 : i = 1
    · exact key i (by simp [h1]) _ h
    · by_cases h2 : i = 2
      · exact key i (by simp [h2]) _ h
      · simp [s7, s6, s5, s4, s3, s2, s1, s0, St.next, h1, h2] at h

theorem compact8 (u : Bool) : s7.w.compact junk d3 0 u tag2 [1] = some ((s8 u).w, { d3 with ctag := tag2 }) := by
  have h1 : collectRemovals s7.w [1] = some [(1, [14])] := by decide +kernel
  have h2 : ∀ u, rewrite junk s7.w.master 0 u tag2 = some (tag2 ++ [10] ++ (if u then [] else aa ++ [10]) ++ bb ++ [10] ++ aa ++ [10], if u then [(11, 8), (14, 11)] else [(8, 8), (11, 11), (14, 14)]) := by
    decide +kernel
  have h3 : ∀ u : Bool, (extractCtag 51 (tag2 ++ [10] ++ (if u then [] else aa ++ [10]) ++ bb ++ [10] ++ aa ++ [10])).getD [] = tag2 := by decide +kernel
  unfold World.compact
  rw [if_neg (by decide), h1, h2]
  simp only [Option.bind_eq_bind, Option.bind_some, h3]
  rfl

theorem reap10 (u : Bool) : (s9 u).w.reap { d3 with ctag := tag2 } 1 = some (s10 u).w := by
  have h1 : ∀ u, ((s9 u).w.sess 1) = ⟨false, some [], some (tag2 ++ [10] ++ (if u then [49, 49, 10] else [49, 52, 10]))⟩ := by decide +kernel
  have h2 : ∀ u, forEachRemoval ((s9 u).w.master ++ []) (some (tag2 ++ [10] ++ (if u then [49, 49, 10] else [49, 52, 10]))) = some (.inr [if u then 11 else 14]) := by decide +kernel
  have h3 : ∀ u, overwrite ((s9 u).w.master ++ []) (if u then 11 else 14) [124] = tag2 ++ [10] ++ (if u then [] else aa ++ [10]) ++ bb ++ [10] ++ [124, 97] ++ [10] := by decide +kernel
  unfold World.reap
  simp only [h1]
  rw [if_neg (by decide), if_pos ⟨rfl, by simp [tag2]⟩, h2]
  simp only [Option.bind_eq_bind, Option.bind_some, List.foldl_cons, List.foldl_nil, h3]
  rfl

theorem run10 (u : Bool) : Run junk s5 [.begin 2, .openMaster 2, .compact 2 0 u, .exit 1, .reap 1 true] (s10 u) := by
  refine .cons (.begin s5 2 rfl) ?_ (.cons (.openMaster s6 2 _ _ true tag1 s6.w d3 rfl ?_) ?_ (.cons (.compact s7 2 d3 _ 0 u tag2 [1] _ _ rfl fresh7 (compact8 u)) ?_
    (.cons (.exit (s8 u) 1 d2 v1 rfl) ?_ (.cons (.reap (s9 u) 1 _ _ (reap10 u)) ?_ (.nil _)))))
  · exact sizes supp6 (by decide +kernel) (by decide +kernel)
  · have : extractCtag 51 s6.w.master = some tag1 := by decide +kernel
    simp only [World.openMaster, this]; rfl
  · exact sizes supp6 (by decide +kernel) (by decide +kernel)
  · exact sizes (supp8 u) (by revert u; decide +kernel) (by revert u; decide +kernel)
  · exact sizes (supp9 u) (by revert u; decide +kernel) (by revert u; decide +kernel)
  · refine sizes (fun i h1 h2 => ?_) (by revert u; decide +kernel) (by revert u; decide +kernel)
    rw [← supp9 u i h1 h2]; simp [s10, World.setSess, h1]

theorem only1 : ∀ i, i ≠ 1 → s5.w.sess i = {} := fun i h1 =>
  (removeId_other s4.w d2 true true 14 i h1).trans (by simp [s4, s3, s2, s1, s0, d1, St.next, World.begin, World.openSession, World.setSess, h1])

/-- The first `aa` is not to be removed. -/
theorem kept5 : Kept aa s5.w := by
  refine .inl ⟨8, by decide +kernel, ?_⟩
  rintro i ⟨r, tag, os, body, h1, h2, h3, h4, h5⟩
  by_cases hi : i = 1
  · subst hi
    have hr : (s5.w.sess 1).removals = some (tag1 ++ [10, 49, 52, 10]) := by decide +kernel
    rw [hr] at h1
    cases h1
    have h14 : IsRemovals tag1 [14] (tag1 ++ [10, 49, 52, 10]) := ⟨[[49, 52]], by decide, by decide, by
      intro w hw
      rw [List.mem_singleton.1 hw]
      exact ⟨by decide, by decide, by decide⟩⟩
    obtain ⟨-, rfl⟩ := removals_unique h2 ⟨⟨[49], rfl⟩, by decide, by decide⟩ h3 h14
    simp at h5
  · rw [only1 i hi] at h1; simp at h1

/-- Session 1 does not see the second any more. -/
example : s5.w.view junk d2 = some [(true, 8, aa), (true, 11, bb)] := by decide +kernel

example : ∃ v', s5.w.view junk d2 = some v' ∧ ∀ o t, (o, t) ∈ linesOf s5.w.master → ¬ IsDeleted t → (true, o, t) ∈ v' ∨ t ∈ s5.chosen 1 :=
  C34_view junk s0 s5 _ (by decide) start run5 1 d2 v1 rfl rfl

/-- Without dropping duplicates, the first `aa` stays and the second is deleted. -/
example : Kept aa (s10 false).w := C33_kept junk s0 s5 _ _ _ aa (by decide) start run5 (run10 false) (by simp [Keeping]) (by decide) kept5

example : linesOf (s10 false).w.master = [(0, tag2), (8, aa), (11, bb), (14, [124, 97])] := by decide +kernel

theorem run_append {s s' s'' : St} {ops ops' : List Op} (h : Run junk s ops s') (h' : Run junk s' ops' s'') : Run junk s (ops ++ ops') s'' := by
  induction h with
  | nil s => exact h'
  | cons h hs _ ih => exact .cons h hs (ih h')

/-- The removal of the second `aa` is translated to its new offset. -/
example : ((s8 true).w.sess 1).removals = some (tag2 ++ [10, 49, 49, 10]) ∧ linesOf (s8 true).w.master = [(0, tag2), (8, bb), (11, aa)] := by decide +kernel

theorem run7 : Run junk s0 [.begin 1, .openMaster 1, .openSession 1, .load 1, .removeEntry 1 aa, .begin 2, .openMaster 2] s7 := by
  refine run_append run5 (.cons (.begin s5 2 rfl) ?_ (.cons (.openMaster s6 2 _ _ true tag1 s6.w d3 rfl ?_) ?_ (.nil _)))
  · exact sizes supp6 (by decide +kernel) (by decide +kernel)
  · have : extractCtag 51 s6.w.master = some tag1 := by decide +kernel
    simp only [World.openMaster, this]; rfl
  · exact sizes supp6 (by decide +kernel) (by decide +kernel)

example : Pending (s8 true).w 1 11 ∧ ∃ o t, Pending s7.w 1 o ∧ (o, t) ∈ linesOf s7.w.master ∧ (11, t) ∈ linesOf (s8 true).w.master := by
  have hp : Pending (s8 true).w 1 11 := ⟨tag2 ++ [10, 49, 49, 10], tag2, [11], bb ++ [10] ++ aa ++ [10], by decide +kernel, ⟨⟨[50], rfl⟩, by decide, by decide⟩,
    ⟨[[49, 49]], by decide, by decide, by
      intro w hw
      rw [List.mem_singleton.1 hw]
      exact ⟨by decide, by decide, by decide⟩⟩, by decide +kernel, by decide⟩
  exact ⟨hp, C34_compact junk s0 s7 _ (by decide) start run7 d3 _ 0 true tag2 [1] _ fresh7 (compact8 true)
    (sizes (supp8 true) (by decide +kernel) (by decide +kernel)) 1 11 hp⟩

/-- Collecting the files marks the second `aa`. -/
example : ((14, aa) ∈ linesOf (s10 false).w.master ∨ ((∃ t', (14, t') ∈ linesOf (s10 false).w.master ∧ IsDeleted t') ∧ ∃ i, aa ∈ (s10 false).chosen i)) := by
  have hr : Run junk s7 [.compact 2 0 false, .exit 1] (s9 false) := by
    refine .cons (.compact s7 2 d3 _ 0 false tag2 [1] _ _ rfl fresh7 (compact8 false)) ?_ (.cons (.exit (s8 false) 1 d2 v1 rfl) ?_ (.nil _))
    · exact sizes (supp8 false) (by decide +kernel) (by decide +kernel)
    · exact sizes (supp9 false) (by decide +kernel) (by decide +kernel)
  refine C34_deleted junk s0 (s9 false) (s10 false) _ (.reap 1 true) (by decide) start (run_append run7 hr) (.reap (s9 false) 1 _ _ (reap10 false)) ?_ (by simp) (by simp) 14 aa
    (by decide +kernel) (by decide)
  refine sizes (fun i h1 h2 => ?_) (by decide +kernel) (by decide +kernel)
  rw [← supp9 false i h1 h2]; simp [s10, World.setSess, h1]

/-- `bb` was never to be removed. -/
example : Present bb (s10 true).w := by
  refine C33_present junk s0 s5 _ _ _ bb (by decide) start run5 (run10 true) (by simp [Keeping]) (by decide) ?_ (.inl ⟨11, by decide +kernel⟩)
  intro i
  by_cases h1 : i = 1
  · subst h1; decide +kernel
  · simp [s10, s9, s8, s7, s6, s5, s4, s3, s2, s1, s0, St.next, h1]

/-- A line for session 1 only: `cc`. -/
def cc : List Nat := [99, 99]

def t6 : St := s5.next (s5.w.append d2 [] cc) 1 (some (d2, v1)) []

theorem append6 : Step junk s5 (.append 1 cc) t6 :=
  .append s5 1 d2 v1 [] cc rfl ⟨by decide, by decide, by decide⟩ (by decide) (by simp [IsStamp]) (by decide)

theorem append_other (w : World) (d : Db) (stamp line : List Nat) (i : Nat) (h : i ≠ d.id) : (w.append d stamp line).sess i = w.sess i := by
  unfold World.append
  simp only
  split
  · rfl
  · split
    · rfl
    · simp [World.putSession, World.setSess, h]

theorem supp_t6 : ∀ i, i ≠ 1 → i ≠ 2 → t6.w.sess i = {} := fun i h1 h2 => (append_other s5.w d2 [] cc i h1).trans (supp5 i h1 h2)

theorem sizes_t6 : Sizes t6.w := sizes supp_t6 (by decide +kernel) (by decide +kernel)

example : Kept cc t6.w := by
  refine C33_added junk s0 s5 t6 _ 1 cc (by decide) start run5 append6 sizes_t6 ?_
  intro d v h
  cases h
  exact .inl rfl

/-- Session 1 ends, and a process that could not open the master file collects the files. -/
def t7 : St := t6.next (t6.w.finish d2).1 1 none []

def t8 : St := { t7 with w := ({ t7.w with master := t7.w.master } : World).setSess 1 {} }

theorem run8 : Run junk t6 [.exit 1, .reap 1 false] t8 := by
  have h1 : (t7.w.sess 1) = ⟨false, some (cc ++ [10]), some (tag1 ++ [10, 49, 52, 10])⟩ := by decide +kernel
  have hre : t7.w.reap ⟨3, false, false, false, []⟩ 1 = some t8.w := by
    unfold World.reap
    simp only [h1]
    rw [if_neg (by decide), if_neg (by simp)]
    rfl
  have hs : ∀ i, i ≠ 1 → i ≠ 2 → t7.w.sess i = {} := fun i h1 h2 => by
    rw [← supp_t6 i h1 h2]; simp [t7, St.next, World.finish, World.setSess, d2, h1]
  refine .cons (.exit t6 1 d2 v1 rfl) ?_ (.cons (.reap t7 1 _ _ hre) ?_ (.nil _))
  · exact sizes hs (by decide +kernel) (by decide +kernel)
  · refine sizes (fun i h1 h2 => ?_) (by decide +kernel) (by decide +kernel)
    rw [← hs i h1 h2]; simp [t8, World.setSess, h1]

end Trace1

open Trace1

/-- C33 does not hold if duplicates are dropped: session 1 waits to remove the second of two equal lines; dropping duplicates
keeps only the second; later it is removed.  Nobody wanted to remove the first. -/
theorem C33_duplicates : ∃ (s s' : St) (ops : List Op), Kept aa s.w ∧ Run junk s ops s' ∧ (∀ op ∈ ops, Keeping true aa op) ∧ ¬ Present aa s'.w ∧
    (∃ s0 ops0, Start junk.length s0 ∧ Run junk s0 ops0 s) := by
  refine ⟨s5, s10 true, _, kept5, run10 true, by simp [Keeping], ?_, s0, _, start, run5⟩
  rintro (⟨o, h⟩ | ⟨id, f, o, h1, h2⟩)
  · have : linesOf (s10 true).w.master = [(0, tag2), (8, bb), (11, [124, 97])] := by decide +kernel
    rw [this] at h
    simp [aa, bb, tag2] at h
  · have hs : (s10 true).w.sess id = {} ∨ id = 2 := by
      by_cases h2 : id = 2
      · exact .inr h2
      · left
        by_cases h1 : id = 1
        · rw [h1]; rfl
        · rw [show (s10 true).w.sess id = (s9 true).w.sess id by simp [s10, World.setSess, h1]]
          exact supp9 true id h1 h2
    rcases hs with hs | rfl
    · rw [hs] at h1; simp at h1
    · have : ((s10 true).w.sess 2).lines = none := by decide +kernel
      rw [this] at h1; simp at h1

/-- C33 does not hold if a process that could not open the master file collects the files of a session. -/
theorem C33_no_master : ∃ (s s' : St) (ops : List Op), Kept cc s.w ∧ Run junk s ops s' ∧ (∀ i, cc ∉ s'.chosen i) ∧ ops = [.exit 1, .reap 1 false] ∧ ¬ Present cc s'.w ∧
    (∃ s0 ops0, Start junk.length s0 ∧ Run junk s0 ops0 s) := by
  refine ⟨t6, t8, _, ?_, run8, ?_, rfl, ?_, s0, _, start, run_append run5 (.cons append6 sizes_t6 (.nil _))⟩
  · exact .inr ⟨1, cc ++ [10], 0, by decide +kernel, by decide +kernel⟩
  · intro i
    by_cases h1 : i = 1
    · subst h1; decide +kernel
    · simp [t8, t7, t6, s5, s4, s3, s2, s1, s0, St.next, h1]
  · rintro (⟨o, h⟩ | ⟨id, f, o, h1, h2⟩)
    · have : linesOf t8.w.master = [(0, tag1), (8, aa), (11, bb), (14, aa)] := by decide +kernel
      rw [this] at h
      simp [aa, bb, cc, tag1] at h
    · have hs : t8.w.sess id = {} := by
        by_cases h1 : id = 1
        · rw [h1]; rfl
        · rw [show t8.w.sess id = t7.w.sess id by simp [t8, World.setSess, h1],
            show t7.w.sess id = t6.w.sess id by simp [t7, St.next, World.finish, World.setSess, d2, h1]]
          exact (append_other s5.w d2 [] cc id h1).trans (only1 id h1)
      rw [hs] at h1; simp at h1

/-- C34 does not hold for the file of removals of a process that had the same number: the tag is replaced and the offsets stay.
Here the master file has a new tag; the old offset is now that of `bb`, which is removed at the end of the session. -/
theorem C34_stale : makeRemovals (some (tag1 ++ [10, 49, 49, 10])) tag2 = tag2 ++ [10, 49, 49, 10] ∧
    linesOf (tag2 ++ [10] ++ aa ++ [10] ++ bb ++ [10]) = [(0, tag2), (8, aa), (11, bb)] ∧
    (((((⟨tag2 ++ [10] ++ aa ++ [10] ++ bb ++ [10], fun i => if i = 1 then ⟨false, some [], some (tag1 ++ [10, 49, 49, 10])⟩ else {}⟩ : World).begin 1).1.openSession
      ⟨1, true, false, false, tag2⟩ true).1.finish ⟨1, true, true, true, tag2⟩).1.reap ⟨2, true, false, false, tag2⟩ 1).map (fun w => linesOf w.master) =
      some [(0, tag2), (8, aa), (11, [124, 98])] := by
  refine ⟨?_, ?_, ?_⟩ <;> decide +kernel

end Clink.Hist
