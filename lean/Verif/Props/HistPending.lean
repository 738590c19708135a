import Verif.Proof.HistPending
import Verif.Props.HistTrace

/-! C34: removals that wait are not forgotten. -/

namespace Clink.Hist

open Spec

/-- A session does not load the lines that it waits to remove. -/
theorem C34_hidden (junk : List Nat) (s0 s : St) (ops : List Op) (hn : 49 < junk.length) (h0 : Start junk.length s0) (hr : Run junk s0 ops s)
    (id : Nat) (d : Db) (v v' : View) (hd : s.dbs id = some (d, v)) (hrem : d.removals = true) (o : Nat) (hp : Pending s.w id o) (hv : s.w.view junk d = some v')
    (t : List Nat) : (true, o, t) ∉ v' := by
  have hi := run_inv hn hr (start_inv h0)
  have hid := (hi.ids id d v hd).1
  obtain ⟨r, tag, os, body, p1, p2, p3, p4, p5, p6⟩ := pending_read hi hp
  intro hin
  obtain ⟨u, hu, -⟩ := remOk_pending (fun r h => (hi.removals id r h).2) hp
  have hob := linesOf_bound hu
  have hms := hi.master.small
  simp only at hob
  -- the line of the view
  have he : s.w.view junk d = (readOpt junk (s.w.masterBank d)).bind fun m => (readOpt junk (s.w.sessionBank d)).bind fun l =>
      some (m.map (fun e => (true, e.offset, e.text)) ++ l.map (fun e => (false, e.offset, e.text))) := by
    unfold World.view
    cases s.w.masterBank d <;> cases s.w.sessionBank d <;> rfl
  rw [he] at hv
  obtain ⟨es, hes, hv⟩ := Option.bind_eq_some_iff.1 hv
  obtain ⟨ls, hls, hv⟩ := Option.bind_eq_some_iff.1 hv
  cases hv
  rcases List.mem_append.1 hin with hin | hin
  · obtain ⟨e, he1, he2⟩ := List.mem_map.1 hin
    simp only [Prod.mk.injEq, true_and] at he2
    obtain ⟨rfl, rfl⟩ := he2
    rw [World.masterBank, if_pos hrem] at hes
    split at hes
    · rw [hid, p1, readOpt, Bank.read, Bank.hidden, p6 _ ⟨body, p4⟩] at hes
      simp only [Option.map_some, Option.bind_some] at hes
      obtain ⟨es', h3, -, h4⟩ := C30_read junk s.w.master (good os) hi.master.small hi.master.complete hi.master.fits
      rw [h3] at hes
      cases hes
      have hmem : (e.offset, e.text) ∈ visible (good os) (linesOf s.w.master) := by rw [← h4]; exact List.mem_map.2 ⟨e, he1, rfl⟩
      obtain ⟨m1, m2⟩ := List.mem_filter.1 hmem
      simp only [decide_eq_true_eq] at m2
      by_cases hz : e.offset = 0
      · rw [p4, linesOf_tagged p2, hz] at m1
        rcases List.mem_cons.1 m1 with m1 | m1
        · simp only [Prod.mk.injEq, true_and] at m1
          rw [m1] at m2
          exact m2.1 (tag_deleted p2)
        · have hs := C30_sorted s.w.master
          rw [p4, linesOf_tagged p2, List.pairwise_cons] at hs
          have := hs.1 _ m1
          simp at this
      · exact m2.2 (List.mem_filter.2 ⟨p5, decide_eq_true (by unfold maxOffset; omega)⟩)
    · cases hes; simp at he1
  · obtain ⟨e, -, he2⟩ := List.mem_map.1 hin
    simp at he2

/-- When the files of a session that has ended are collected, each line that it waited to remove is deleted. -/
theorem C34_applied (junk : List Nat) (s0 s : St) (ops : List Op) (hn : 49 < junk.length) (h0 : Start junk.length s0) (hr : Run junk s0 ops s)
    (id o : Nat) (hp : Pending s.w id o) (l : List Nat) (hl : (s.w.sess id).lines = some l) (hal : (s.w.sess id).alive = false)
    (d : Db) (hm : d.master = true) (w' : World) (h : s.w.reap d id = some w') : ∃ t, (o, t) ∈ linesOf w'.master ∧ IsDeleted t := by
  have hi := run_inv hn hr (start_inv h0)
  have hF := hi.lines id l hl
  obtain ⟨r, tag, os, body, p1, p2, p3, p4, p5, p6⟩ := pending_read hi hp
  have hr0 : 0 < r.length := by
    obtain ⟨b, hb⟩ := removals_prefix p3
    rw [hb]; simp; omega
  have hE1 : Evolves (· ∈ s.chosen id) s.w.master (s.w.master ++ l) := evolves_append hi.master.complete hF.complete
  have hmay : May (· ∈ s.chosen id) s.w.master o := remOk_pending (fun r h => (hi.removals id r h).2) hp
  have hmays : ∀ x ∈ good os, May (· ∈ s.chosen id) (s.w.master ++ l) x := by
    intro x hx
    refine (remOk_pending (fun r h => (hi.removals id r h).2) (?_ : Pending s.w id x)).evolves hE1
    exact ⟨r, tag, os, body, p1, p2, p3, p4, (List.mem_filter.1 hx).1⟩
  have hfit := fits_append hi.master.complete hi.master.fits hF.fits
  rw [World.reap] at h
  simp only [hl, hal, Bool.false_eq_true, if_false, p1] at h
  rw [if_pos ⟨hm, .inr (by simpa using hr0)⟩, p6 _ ⟨body ++ l, by rw [p4]; simp⟩] at h
  simp at h
  subst h
  show ∃ t, (o, t) ∈ linesOf ((good os).foldl (fun f o => overwrite f o [124]) (s.w.master ++ l)) ∧ _
  by_cases ho : o ∈ good os
  · exact fold_deleted (n := junk.length) _ hmays hfit o ho
  · obtain ⟨t, ht, -⟩ := hmay
    have hob := linesOf_bound ht
    have hms := hi.master.small
    simp only at hob
    have hz : o = 0 := by
      by_cases hz : o = 0
      · exact hz
      · exact absurd (List.mem_filter.2 ⟨p5, decide_eq_true (by unfold maxOffset; omega)⟩) ho
    subst hz
    refine ⟨tag, fold_other _ hmays ?_ ho, tag_deleted p2⟩
    rw [p4, List.append_assoc, List.append_assoc, ← List.append_assoc, linesOf_tagged p2]
    simp

/-- Compaction: the lines of the new file are lines of the old one, in the same order; and a session, among those that are
found, waits to remove a line of the new file if and only if it waited to remove the line of the old file that it came from. -/
theorem C34_moved (junk : List Nat) (s0 s : St) (ops : List Op) (hn : 49 < junk.length) (h0 : Start junk.length s0) (hr : Run junk s0 ops s)
    (d d' : Db) (hm : d.master = true) (limit : Nat) (uniq : Bool) (tag ids : List Nat) (w' : World) (ht : Fresh s tag)
    (h : s.w.compact junk d limit uniq tag ids = some (w', d')) (hsz : Sizes w') :
    ∃ old new : List (Nat × List Nat), List.Sublist old (linesOf s.w.master) ∧ linesOf w'.master = (0, tag) :: new ∧ old.map (·.2) = new.map (·.2) ∧
      (limit = 0 → uniq = false → ∀ o t, (o, t) ∈ linesOf s.w.master → ¬ IsDeleted t → (o, t) ∈ old) ∧
      ∀ i k, Pending w' i k ↔ (i ∈ ids ∧ (s.w.sess i).lines.isSome ∧
        ∃ (j o : Nat) (t : List Nat), old[j]? = some (o, t) ∧ new[j]? = some (k, t) ∧ 0 < o ∧ Pending s.w i o) := by
  have hi := run_inv hn hr (start_inv h0)
  unfold World.compact at h
  rw [if_neg (by simp [hm])] at h
  have h49 := ht.valid.2.2
  cases hc : collectRemovals s.w ids with
  | none => rw [hc] at h; simp at h
  | some rs =>
    obtain ⟨f, remap, old, new, q1, ⟨body, q2⟩, q3, q4, q5, q6, q7⟩ := C35_remap junk s.w.master tag limit uniq hi.master ht.valid (by omega)
    rw [hc, q1] at h
    simp only [Option.bind_eq_bind, Option.bind_some, Option.some.injEq, Prod.mk.injEq] at h
    obtain ⟨rfl, rfl⟩ := h
    have hx : (extractCtag 51 f).getD [] = tag := by rw [q2, extract_tag ht.valid _ (by omega)]; rfl
    rw [hx] at hsz ⊢
    obtain ⟨w1, w2⟩ := writeRemovals_spec tag remap rs { s.w with master := f }
    simp only at w1 w2
    have hsm := hsz.master
    rw [w1] at hsm ⊢
    refine ⟨old, new, q4, q5, q6, ?_, ?_⟩
    · rintro rfl rfl o t hot htd
      obtain ⟨f2, remap2, k1, -, -, k4⟩ := C35_keeps junk s.w.master tag 0 false hi.master ht.valid (by omega) (by omega)
      rw [q1] at k1
      simp only [Option.some.injEq, Prod.mk.injEq] at k1
      obtain ⟨rfl, rfl⟩ := k1
      rw [if_pos rfl] at k4
      exact old_all ht.valid q4 q5 q6 k4 hot htd
    -- what a file of removals that was collected has
    have hfound : ∀ i os1, (i, os1) ∈ rs → ∃ r0 tag2 os2 body2, (s.w.sess i).removals = some r0 ∧ IsTag tag2 ∧ IsRemovals tag2 os2 r0 ∧ s.w.master = tag2 ++ [10] ++ body2 ∧
        os1 = good os2 ∧ ∀ o ∈ os1, ∀ k, remap.lookup o = some k → k < 10 ^ 10 := by
      intro i os1 k1
      obtain ⟨r0, c1, c2⟩ := collect_mem ids hc _ k1
      obtain ⟨l1, l2⟩ := hi.removals i r0 c1
      rcases l2.read l1 hi.tagged with m | ⟨tag2, os2, n1, ⟨body2, n2⟩, n3, m1, m2⟩
      · rw [m] at c2; simp at c2
      · rw [m1] at c2
        simp only [Option.some.injEq, Sum.inr.injEq] at c2
        exact ⟨r0, tag2, os2, body2, c1, n1, n3, n2, c2.symm, (remOk_new ht.valid q4 q5 q6 q7 hsm (fun x hx => m2 x (by rw [← c2] at hx; exact (List.mem_filter.1 hx).1))).2⟩
    have hnodup : (old.map (·.1)).Nodup := by
      have h1 := (C30_sorted s.w.master).sublist q4
      rw [List.Nodup, List.pairwise_map]
      exact h1.imp (by intro a b h; omega)
    intro i k
    constructor
    · rintro ⟨r, tag', os, b, p1, p2, p3, p4, p5⟩
      rw [w1, q2] at p4
      have := tag_unique ht.valid p2 p4
      subst this
      rcases (w2 i).2.2 with k1 | ⟨os1, k1, k2⟩
      · exfalso
        rw [k1] at p1
        obtain ⟨b', hb'⟩ := removals_prefix p3
        exact ht.removals i r p1 b' hb'
      · rw [k2] at p1
        cases p1
        obtain ⟨c1, c2⟩ := collect_in ids hc _ k1
        obtain ⟨r0, tag2, os2, body2, n1, n2, n3, n4, rfl, hb⟩ := hfound i os1 k1
        obtain ⟨-, rfl⟩ := removals_unique p2 p2 p3 (newRemovals_is hb)
        obtain ⟨o1, ho1, hk1⟩ := List.mem_filterMap.1 p5
        have hz := lookup_mem _ hk1
        rw [q7] at hz
        obtain ⟨j, t, z1, z2⟩ := (zip_getElem old new q6 _ _).1 hz
        obtain ⟨g1, g2⟩ := List.mem_filter.1 ho1
        simp only [decide_eq_true_eq] at g2
        exact ⟨c1, c2, j, o1, t, z1, z2, g2.1, r0, tag2, os2, body2, n1, n2, n3, n4, g1⟩
    · rintro ⟨hids, hli, j, o, t, z1, z2, ho, hp⟩
      obtain ⟨l, hl⟩ := Option.isSome_iff_exists.1 hli
      obtain ⟨r, tag1, os, body1, p1, p2, p3, p4, p5, p6⟩ := pending_read hi hp
      have hr0 : r ≠ [] := by
        obtain ⟨b, hb⟩ := removals_prefix p3
        rw [hb]; simp
      have hin := collect_has hl p1 hr0 (p6 _ ⟨body1, p4⟩) ids hc hids
      obtain ⟨os1, k1, k2⟩ := writeRemovals_has tag remap rs { s.w with master := f } ⟨_, hin⟩
      obtain ⟨r0, tag2, os2, body2, n1, n2, n3, n4, rfl, hb⟩ := hfound i os1 k1
      rw [p1] at n1
      cases n1
      obtain ⟨-, rfl⟩ := removals_unique p2 n2 p3 n3
      refine ⟨_, tag, _, body, k2, ht.valid, newRemovals_is hb, by rw [w1]; exact q2, ?_⟩
      have hzip := (zip_getElem old new q6 o k).2 ⟨j, t, z1, z2⟩
      have hol := linesOf_bound (q4.subset (List.mem_of_getElem? z1))
      have hms := hi.master.small
      simp only at hol
      refine List.mem_filterMap.2 ⟨o, List.mem_filter.2 ⟨p5, decide_eq_true (by unfold maxOffset; omega)⟩, ?_⟩
      rw [q7]
      exact lookup_zip _ _ hnodup hzip

namespace Trace1

theorem pending5 : Pending s5.w 1 14 := ⟨tag1 ++ [10, 49, 52, 10], tag1, [14], aa ++ [10] ++ bb ++ [10] ++ aa ++ [10], by decide +kernel, ⟨⟨[49], rfl⟩, by decide, by decide⟩,
  ⟨[[49, 52]], by decide, by decide, by
    intro w hw
    rw [List.mem_singleton.1 hw]
    exact ⟨by decide, by decide, by decide⟩⟩, by decide +kernel, by decide⟩

theorem pending9 : Pending (s9 true).w 1 11 := ⟨tag2 ++ [10, 49, 49, 10], tag2, [11], bb ++ [10] ++ aa ++ [10], by decide +kernel, ⟨⟨[50], rfl⟩, by decide, by decide⟩,
  ⟨[[49, 49]], by decide, by decide, by
    intro w hw
    rw [List.mem_singleton.1 hw]
    exact ⟨by decide, by decide, by decide⟩⟩, by decide +kernel, by decide⟩

/-- Session 1 does not load the second `aa`. -/
example : (true, 14, aa) ∉ ([(true, 8, aa), (true, 11, bb)] : View) :=
  C34_hidden junk s0 s5 _ (by decide) start run5 1 d2 v1 _ rfl rfl 14 pending5 (by decide +kernel) aa

/-- It is deleted when its files are collected. -/
example : ∃ t, (11, t) ∈ linesOf (s10 true).w.master ∧ IsDeleted t := by
  have hr : Run junk s7 [.compact 2 0 true, .exit 1] (s9 true) := by
    refine .cons (.compact s7 2 d3 _ 0 true tag2 [1] _ _ rfl fresh7 (compact8 true)) ?_ (.cons (.exit (s8 true) 1 d2 v1 rfl) ?_ (.nil _))
    · exact sizes (supp8 true) (by decide +kernel) (by decide +kernel)
    · exact sizes (supp9 true) (by decide +kernel) (by decide +kernel)
  exact C34_applied junk s0 (s9 true) _ (by decide) start (run_append run7 hr) 1 11 pending9 [] (by decide +kernel) (by decide +kernel) _ rfl _ (reap10 true)

/-- In the compaction before, it moved from 14 to 11. -/
example : ∃ old new : List (Nat × List Nat), List.Sublist old (linesOf s7.w.master) ∧ linesOf (s8 true).w.master = (0, tag2) :: new ∧
    ∃ (j o : Nat) (t : List Nat), old[j]? = some (o, t) ∧ new[j]? = some (11, t) ∧ Pending s7.w 1 o := by
  obtain ⟨old, new, h1, h2, -, -, h3⟩ := C34_moved junk s0 s7 _ (by decide) start run7 d3 _ rfl 0 true tag2 [1] _ fresh7 (compact8 true)
    (sizes (supp8 true) (by decide +kernel) (by decide +kernel))
  have hp : Pending (s8 true).w 1 11 := ⟨tag2 ++ [10, 49, 49, 10], tag2, [11], bb ++ [10] ++ aa ++ [10], by decide +kernel, ⟨⟨[50], rfl⟩, by decide, by decide⟩,
    ⟨[[49, 49]], by decide, by decide, by
      intro w hw
      rw [List.mem_singleton.1 hw]
      exact ⟨by decide, by decide, by decide⟩⟩, by decide +kernel, by decide⟩
  obtain ⟨-, -, j, o, t, z1, z2, -, z3⟩ := (h3 1 11).1 hp
  exact ⟨old, new, h1, h2, j, o, t, z1, z2, z3⟩

end Trace1

end Clink.Hist
