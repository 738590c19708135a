import Verif.Proof.HistTrace

/-! Lemmas: removals that wait are applied. -/

namespace Clink.Hist

open Spec

/-- The file of removals of a session that waits to remove a line is read. -/
theorem pending_read {n : Nat} {s : St} (hi : TInv n s) {id o : Nat} (hp : Pending s.w id o) : ∃ r tag os body,
    (s.w.sess id).removals = some r ∧ IsTag tag ∧ IsRemovals tag os r ∧ s.w.master = tag ++ [10] ++ body ∧ o ∈ os ∧
      ∀ f, (∃ body', f = tag ++ [10] ++ body') → forEachRemoval f (some r) = some (.inr (good os)) := by
  obtain ⟨r, tag, os, body, p1, p2, p3, p4, p5⟩ := hp
  refine ⟨r, tag, os, body, p1, p2, p3, p4, p5, ?_⟩
  rintro f ⟨b, rfl⟩
  exact forEach_match p2 p3 (hi.removals id r p1).1 (extract_tag p2 _ (by decide))

theorem fold_deleted {n : Nat} {D : List Nat → Prop} (xs : List Nat) : ∀ {f : List Nat}, (∀ o ∈ xs, May D f o) → Fits n f → ∀ o ∈ xs,
    ∃ t, (o, t) ∈ linesOf (xs.foldl (fun f o => overwrite f o [124]) f) ∧ IsDeleted t := by
  induction xs with
  | nil => intro f _ _ o h; simp at h
  | cons x xs ih =>
    intro f h hf o ho
    obtain ⟨t, ht, hd⟩ := h x (by simp)
    have he : Evolves D f (overwrite f x [124]) := evolves_overwrite ht hd
    have hm : ∀ o' ∈ xs, May D (overwrite f x [124]) o' := fun o' ho' => (h o' (by simp [ho'])).evolves he
    have hf' := (linesOf_bar ht).2.2.2 n hf
    by_cases hx : o ∈ xs
    · exact ih hm hf' o hx
    · have : o = x := by simpa [hx] using ho
      subst this
      have hl : bar o (o, t) ∈ linesOf (overwrite f o [124]) := by rw [(linesOf_bar ht).1]; exact List.mem_map.2 ⟨_, ht, rfl⟩
      simp only [bar, if_true] at hl
      obtain ⟨t', h1, h2⟩ := (evolves_fold (n := n) xs hm hf').1.lines _ hl
      refine ⟨t', h1, ?_⟩
      rcases h2 with rfl | ⟨h2, -⟩
      · exact ⟨_, rfl⟩
      · exact h2

theorem collect_has {w : World} {i : Nat} {r l os : List Nat} (hl : (w.sess i).lines = some l) (hr : (w.sess i).removals = some r) (h0 : r ≠ [])
    (he : forEachRemoval w.master (some r) = some (.inr os)) (ids : List Nat) : ∀ {rs : List (Nat × List Nat)}, collectRemovals w ids = some rs → i ∈ ids → (i, os) ∈ rs := by
  induction ids with
  | nil => intro rs _ hi; simp at hi
  | cons j ids ih =>
    intro rs h hi
    rw [collectRemovals] at h
    cases hc : collectRemovals w ids with
    | none => rw [hc] at h; simp at h
    | some rest =>
      rw [hc] at h
      simp only [Option.bind_eq_bind, Option.bind_some] at h
      by_cases hm : i ∈ ids
      · have hrest := ih hc hm
        split at h
        · split at h
          · rename_i l' r' _ _ _
            cases hf : forEachRemoval w.master (some r') with
            | none => rw [hf] at h; simp at h
            | some y =>
              rw [hf] at h
              cases y with
              | inl _ => cases h; exact hrest
              | inr os' => cases h; exact List.mem_cons_of_mem _ hrest
          · cases h; exact hrest
        · cases h; exact hrest
      · have : i = j := by simpa [hm] using hi
        subst this
        rw [hl, hr] at h
        have hpos : 0 < r.length := List.length_pos_iff.2 h0
        simp only [he] at h
        rw [if_pos (.inr hpos)] at h
        cases h
        simp

theorem collect_in {w : World} (ids : List Nat) : ∀ {rs : List (Nat × List Nat)}, collectRemovals w ids = some rs → ∀ x ∈ rs, x.1 ∈ ids ∧ (w.sess x.1).lines.isSome := by
  induction ids with
  | nil => intro rs h x hx; cases h; simp at hx
  | cons i ids ih =>
    intro rs h x hx
    rw [collectRemovals] at h
    cases hc : collectRemovals w ids with
    | none => rw [hc] at h; simp at h
    | some rest =>
      rw [hc] at h
      simp only [Option.bind_eq_bind, Option.bind_some] at h
      have hrest : ∀ (h : some rest = some rs), x.1 ∈ i :: ids ∧ (w.sess x.1).lines.isSome := by
        intro h; cases h; exact ⟨List.mem_cons_of_mem _ (ih hc x hx).1, (ih hc x hx).2⟩
      split at h
      · rename_i l r h1 h2
        split at h
        · cases hf : forEachRemoval w.master (some r) with
          | none => rw [hf] at h; simp at h
          | some y =>
            rw [hf] at h
            cases y with
            | inl _ => exact hrest h
            | inr os =>
              simp only [Option.bind_some, Option.some.injEq] at h
              subst h
              rcases List.mem_cons.1 hx with rfl | hx
              · exact ⟨by simp, by rw [h1]; rfl⟩
              · exact ⟨List.mem_cons_of_mem _ (ih hc x hx).1, (ih hc x hx).2⟩
        · exact hrest h
      · exact hrest h

theorem writeRemovals_has (tag : List Nat) (remap : List (Nat × Nat)) {i : Nat} (rs : List (Nat × List Nat)) : ∀ w : World, (∃ os, (i, os) ∈ rs) →
    ∃ os, (i, os) ∈ rs ∧ ((writeRemovals tag remap rs w).sess i).removals = some (newRemovals tag remap os) := by
  induction rs with
  | nil => rintro w ⟨os, h⟩; simp at h
  | cons x rs ih =>
    obtain ⟨id, os⟩ := x
    rintro w ⟨os0, h⟩
    rw [writeRemovals]
    by_cases hm : ∃ os, (i, os) ∈ rs
    · obtain ⟨os1, k1, k2⟩ := ih (w.setSess id { w.sess id with removals := some (newRemovals tag remap os) }) hm
      exact ⟨os1, by simp [k1], k2⟩
    · have : i = id ∧ os0 = os := by
        rcases List.mem_cons.1 h with h | h
        · simpa using h
        · exact absurd ⟨os0, h⟩ hm
      obtain ⟨rfl, rfl⟩ := this
      refine ⟨os0, by simp, ?_⟩
      rcases (writeRemovals_spec tag remap rs (w.setSess i { w.sess i with removals := some (newRemovals tag remap os0) })).2 i with ⟨-, -, h | ⟨os1, h, -⟩⟩
      · refine h.trans ?_
        simp [World.setSess]
      · exact absurd ⟨os1, h⟩ hm

theorem lookup_zip (as bs : List Nat) : as.Nodup → ∀ {a b : Nat}, (a, b) ∈ as.zip bs → (as.zip bs).lookup a = some b := by
  induction as generalizing bs with
  | nil => intro _ a b h; simp at h
  | cons x as ih =>
    intro hp a b h
    cases bs with
    | nil => simp at h
    | cons y bs =>
      rw [List.nodup_cons] at hp
      rw [List.zip_cons_cons] at h ⊢
      rcases List.mem_cons.1 h with h | h
      · simp only [Prod.mk.injEq] at h
        obtain ⟨rfl, rfl⟩ := h
        simp
      · have : a ≠ x := fun he => hp.1 (he ▸ (List.of_mem_zip h).1)
        rw [List.lookup_cons, beq_false_of_ne this]
        exact ih bs hp.2 h

theorem zip_getElem (old new : List (Nat × List Nat)) (h : old.map (·.2) = new.map (·.2)) (a b : Nat) : (a, b) ∈ (old.map (·.1)).zip (new.map (·.1)) ↔
    ∃ (j : Nat) (t : List Nat), old[j]? = some (a, t) ∧ new[j]? = some (b, t) := by
  induction old generalizing new with
  | nil => simp
  | cons x old ih =>
    cases new with
    | nil => simp at h
    | cons y new =>
      simp only [List.map_cons, List.cons.injEq] at h
      simp only [List.map_cons, List.zip_cons_cons, List.mem_cons, ih new h.2]
      constructor
      · rintro (h' | ⟨j, t, h1, h2⟩)
        · simp only [Prod.mk.injEq] at h'
          obtain ⟨rfl, rfl⟩ := h'
          exact ⟨0, x.2, by simp, by rw [h.1]; simp⟩
        · exact ⟨j + 1, t, by simpa using h1, by simpa using h2⟩
      · rintro ⟨j, t, h1, h2⟩
        cases j with
        | zero =>
          simp at h1 h2
          left; rw [h1, h2]
        | succ j => exact .inr ⟨j, t, by simpa using h1, by simpa using h2⟩

end Clink.Hist
