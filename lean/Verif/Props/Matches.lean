import Verif.Proof.Matches

/-! C19: duplicate matches are dropped, and nothing else. -/

namespace Clink.Matches

open StrCompare (isSep)
open Path (AlphaOk)

theorem keeps_from {es : List (Option (Desc × Spec.Entry))} {keep : List Bool} : KeepsFrom [] es keep ↔ Spec.Keeps es keep := by
  unfold KeepsFrom Spec.Keeps
  simp

/-- The list holds, in the order in which they were added, the matches that are not the same as one that was kept before; `add`
returns whether a match was kept.  The number of matches is counted in 16 bits. -/
theorem C19_kept {alpha : Nat → Bool} (ha : AlphaOk alpha) (sep : Nat) (old : Bool) (mode : Nat) (ops : List Spec.Op) (hz : Clean ops) :
    ∃ s keep es, Spec.run alpha mode (Spec.start sep old) ops = some (s, keep) ∧ Spec.Offers alpha sep mode false ops es ∧ Spec.Keeps es keep ∧
      s.infos.length = (Spec.chosen es keep).length ∧
      (∀ n info d e, s.infos[n]? = some info → (Spec.chosen es keep)[n]? = some (d, e) → Spec.Shows info n d e) ∧
      s.count = s.infos.length % 65536 := by
  obtain ⟨s, keep, es, infos, h1, h2, h3, h4, h5, h6, h7⟩ := run_spec ha ops hz mode _ (building_start sep old)
  refine ⟨s, keep, es, h1, h2, keeps_from.1 h3, ?_, ?_, h5.count⟩
  · rw [h4, ← h6]; simp [Spec.start]
  · intro n info d e g1 g2
    rw [h4] at g1
    have := h7 n info d e (by simpa [Spec.start] using g1) g2
    simpa [Spec.start] using this

theorem meant_unique {alpha : Nat → Bool} {mode sep : Nat} {files already : Bool} {text : List Nat} {type : MType} {e e' : Spec.Entry}
    (he : Spec.Meant alpha mode sep files already text type e) (he2 : Spec.Meant alpha mode sep files already text type e') : e = e' := by
  have hk : e.type = e'.type := he.kind.trans he2.kind.symm
  obtain ⟨t, ht, htext⟩ := he.text
  obtain ⟨t', ht', htext'⟩ := he2.text
  have htt : t = t' := by
    rw [← hk] at ht'
    split at ht
    · rename_i hc; rw [if_pos hc] at ht'; rw [ht, ht']
    · rename_i hc; rw [if_neg hc] at ht'; rw [ht, ht']
  have : e.text = e'.text := by rw [htext, htext', ← hk, htt]
  cases e; cases e'
  simp only at hk this
  rw [hk, this]

/-- What is offered and what is kept of it are determined. -/
theorem C19_determined {alpha : Nat → Bool} {sep mode : Nat} {files : Bool} {ops : List Spec.Op} {es es' : List (Option (Desc × Spec.Entry))}
    (h : Spec.Offers alpha sep mode files ops es) (h' : Spec.Offers alpha sep mode files ops es') : es = es' := by
  induction h generalizing es' with
  | nil => cases h'; rfl
  | empty hd _ ih =>
    cases h' with
    | empty _ h2 => rw [ih h2]
    | add hd2 hne _ _ =>
      rcases hd with hd | hd
      · rw [hd] at hd2; cases hd2
      · rw [hd] at hd2; cases hd2; exact absurd rfl hne
  | add hd hne he _ ih =>
    cases h' with
    | empty hd2 _ =>
      rcases hd2 with hd2 | hd2
      · rw [hd] at hd2; cases hd2
      · rw [hd] at hd2; cases hd2; exact absurd rfl hne
    | add hd2 hne2 he2 h2 =>
      rw [hd] at hd2
      cases hd2
      rw [ih h2]
      rw [meant_unique he he2]
  | files _ ih => cases h' with | files h2 => exact ih h2
  | slashes _ ih => cases h' with | slashes h2 => exact ih h2

theorem C19_kept_determined {es : List (Option (Desc × Spec.Entry))} {keep keep' : List Bool} (h : Spec.Keeps es keep) (h' : Spec.Keeps es keep') :
    keep = keep' := by
  have key : ∀ n : Nat, ∀ i : Nat, i < n → (keep[i]? = some true ↔ keep'[i]? = some true) := by
    intro n
    induction n with
    | zero => omega
    | succ n ih =>
      intro i hi
      by_cases hlt : i < n
      · exact ih i hlt
      · have : i = n := by omega
        subst this
        rw [h.2, h'.2]
        constructor
        · rintro ⟨d, e, h1, h2⟩
          exact ⟨d, e, h1, fun j d' f hj hk => h2 j d' f hj ((ih j hj).2 hk)⟩
        · rintro ⟨d, e, h1, h2⟩
          exact ⟨d, e, h1, fun j d' f hj hk => h2 j d' f hj ((ih j hj).1 hk)⟩
  apply List.ext_getElem (by rw [h.1, h'.1])
  intro i h1 h2
  have := key (i + 1) i (by omega)
  rw [List.getElem?_eq_getElem h1, List.getElem?_eq_getElem h2] at this
  cases hx : keep[i] <;> cases hy : keep'[i] <;> simp_all

/-- Each match that was added is the same as one that is kept. -/
theorem C19_cover {es : List (Option (Desc × Spec.Entry))} {keep : List Bool} (h : Spec.Keeps es keep) {i : Nat} {d : Desc} {e : Spec.Entry}
    (hi : es[i]? = some (some (d, e))) :
    ∃ (j : Nat) (d' : Desc) (f : Spec.Entry), j ≤ i ∧ keep[j]? = some true ∧ es[j]? = some (some (d', f)) ∧ Spec.Same f e := by
  by_cases hk : keep[i]? = some true
  · exact ⟨i, d, e, Nat.le_refl _, hk, hi, rfl, .inl rfl⟩
  · refine Classical.byContradiction fun hn => hk ((h.2 i).2 ⟨d, e, hi, fun j d' f hj hkj he hs => hn ⟨j, d', f, by omega, hkj, he, hs⟩⟩)

theorem keepsFrom_inv {prior : List Spec.Entry} {x : Option (Desc × Spec.Entry)} {es keep} {k : Bool} (h : KeepsFrom prior (x :: es) (k :: keep)) :
    (k = true ↔ ∃ (d : Desc) (e : Spec.Entry), x = some (d, e) ∧ ∀ f ∈ prior, ¬ Spec.Same f e) ∧
    (k = false → KeepsFrom prior es keep) ∧ (∀ d e, k = true → x = some (d, e) → KeepsFrom (prior ++ [e]) es keep) := by
  have h0 := h.2 0
  simp only [List.getElem?_cons_zero, Option.some.injEq] at h0
  have hlen : keep.length = es.length := by simpa using h.1
  refine ⟨?_, ?_, ?_⟩
  · rw [h0]
    constructor
    · rintro ⟨d, e, h1, h2, -⟩; exact ⟨d, e, h1, h2⟩
    · rintro ⟨d, e, h1, h2⟩; exact ⟨d, e, h1, h2, fun j _ _ hj => absurd hj (Nat.not_lt_zero _)⟩
  · intro hk
    subst hk
    refine ⟨hlen, fun i => ?_⟩
    have := h.2 (i + 1)
    rw [List.getElem?_cons_succ] at this
    rw [this]
    constructor
    · rintro ⟨d, e, h1, h2, h3⟩
      exact ⟨d, e, h1, h2, fun j d' f hj hk he => h3 (j + 1) d' f (by omega) hk he⟩
    · rintro ⟨d, e, h1, h2, h3⟩
      refine ⟨d, e, h1, h2, fun j d' f hj hk he => ?_⟩
      cases j with
      | zero => simp at hk
      | succ j => exact h3 j d' f (by omega) hk he
  · intro d e hk hx
    subst hk hx
    refine ⟨hlen, fun i => ?_⟩
    have := h.2 (i + 1)
    rw [List.getElem?_cons_succ] at this
    rw [this]
    constructor
    · rintro ⟨d1, e1, h1, h2, h3⟩
      refine ⟨d1, e1, h1, fun f hf => ?_, fun j d' f hj hk he => h3 (j + 1) d' f (by omega) hk he⟩
      simp only [List.mem_append, List.mem_singleton] at hf
      rcases hf with hf | rfl
      · exact h2 f hf
      · exact h3 0 d f (by omega) rfl rfl
    · rintro ⟨d1, e1, h1, h2, h3⟩
      refine ⟨d1, e1, h1, fun f hf => h2 f (by simp [hf]), fun j d' f hj hk he => ?_⟩
      cases j with
      | zero =>
        simp only [List.getElem?_cons_zero, Option.some.injEq, Prod.mk.injEq] at he
        rw [← he.2]
        exact h2 e (by simp)
      | succ j => exact h3 j d' f (by omega) hk he

/-- The matches that are offered. -/
def offered (es : List (Option (Desc × Spec.Entry))) : List Spec.Entry := es.filterMap fun x => x.map (·.2)

theorem idx_ne {a b : Spec.Entry} (l : List Spec.Entry) (h : a ≠ b) : (a :: l).idxOf b = l.idxOf b + 1 := by
  have : (a == b) = false := by simpa using h
  rw [List.idxOf_cons, this]
  rfl

theorem distinct_from (es : List (Option (Desc × Spec.Entry))) (prior : List Spec.Entry) (keep : List Bool) (h : KeepsFrom prior es keep)
    (hp : ∀ e ∈ prior, e.type.hist = false) (hh : ∀ e ∈ offered es, e.type.hist = false) :
    ((Spec.chosen es keep).map (·.2)).Nodup ∧ (∀ e, e ∈ (Spec.chosen es keep).map (·.2) ↔ e ∈ offered es ∧ e ∉ prior) ∧
      ((Spec.chosen es keep).map (·.2)).Pairwise fun e f => (offered es).idxOf e < (offered es).idxOf f := by
  induction es generalizing prior keep with
  | nil =>
    have : keep = [] := List.length_eq_zero_iff.1 (by simpa using h.1)
    subst this
    refine ⟨by simp [Spec.chosen], by simp [Spec.chosen, offered], by simp [Spec.chosen]⟩
  | cons x es ih =>
    rcases keep with _ | ⟨k, keep⟩
    · have := h.1; simp at this
    · obtain ⟨i1, i2, i3⟩ := keepsFrom_inv h
      rcases x with _ | ⟨d, e⟩
      · have hk : k = false := by
          cases k with
          | false => rfl
          | true => obtain ⟨_, _, hx, -⟩ := i1.1 rfl; cases hx
        subst hk
        rw [chosen_cons_false]
        have ho : offered (none :: es) = offered es := rfl
        rw [ho] at hh ⊢
        exact ih prior keep (i2 rfl) hp hh
      · have ho : offered (some (d, e) :: es) = e :: offered es := rfl
        rw [ho] at hh ⊢
        have he : e.type.hist = false := hh e List.mem_cons_self
        have hh' : ∀ e ∈ offered es, e.type.hist = false := fun f hf => hh f (List.mem_cons_of_mem _ hf)
        have hsame : ∀ f ∈ prior, Spec.Same f e ↔ f = e := by
          intro f hf
          constructor
          · rintro ⟨h1, h2 | h2 | h2⟩
            · cases f; cases e; simp only at h1 h2; rw [h1, h2]
            · rw [hp f hf] at h2; cases h2
            · rw [he] at h2; cases h2
          · rintro rfl; exact ⟨rfl, .inl rfl⟩
        cases k with
        | false =>
          rw [chosen_cons_false]
          obtain ⟨j1, j2, j3⟩ := ih prior keep (i2 rfl) hp hh'
          have hin : e ∈ prior := by
            refine Classical.byContradiction fun hn => ?_
            have := i1.2 ⟨d, e, rfl, fun f hf hs => hn (by rw [← (hsame f hf).1 hs]; exact hf)⟩
            cases this
          refine ⟨j1, fun f => ?_, ?_⟩
          · rw [j2 f, List.mem_cons]
            constructor
            · rintro ⟨h1, h2⟩; exact ⟨.inr h1, h2⟩
            · rintro ⟨rfl | h1, h2⟩
              · exact absurd hin h2
              · exact ⟨h1, h2⟩
          · refine j3.imp_of_mem fun {a b} ha hb hab => ?_
            have ha' := ((j2 a).1 ha).2
            have hb' := ((j2 b).1 hb).2
            have h1 : e ≠ a := by rintro rfl; exact ha' hin
            have h2 : e ≠ b := by rintro rfl; exact hb' hin
            rw [idx_ne _ h1, idx_ne _ h2]
            omega
        | true =>
          rw [chosen_cons_true]
          have hno : e ∉ prior := by
            intro hn
            obtain ⟨d', e', hx, h2⟩ := i1.1 rfl
            cases hx
            exact h2 e hn ⟨rfl, .inl rfl⟩
          obtain ⟨j1, j2, j3⟩ := ih (prior ++ [e]) keep (i3 d e rfl rfl) (by
            intro f hf
            simp only [List.mem_append, List.mem_singleton] at hf
            rcases hf with hf | rfl
            · exact hp f hf
            · exact he) hh'
          simp only [Option.toList_some, List.cons_append, List.nil_append, List.map_cons]
          refine ⟨List.nodup_cons.2 ⟨fun hc => ((j2 e).1 hc).2 (by simp), j1⟩, fun f => ?_, List.pairwise_cons.2 ⟨?_, ?_⟩⟩
          · rw [List.mem_cons, j2 f, List.mem_cons]
            simp only [List.mem_append, List.mem_singleton, not_or]
            constructor
            · rintro (rfl | ⟨h1, h2, -⟩)
              · exact ⟨.inl rfl, hno⟩
              · exact ⟨.inr h1, h2⟩
            · rintro ⟨h1, h2⟩
              by_cases hfe : f = e
              · exact .inl hfe
              · exact .inr ⟨h1.resolve_left hfe, h2, hfe⟩
          · intro f hf
            have h1 : e ≠ f := by rintro rfl; exact ((j2 e).1 hf).2 (by simp)
            rw [List.idxOf_cons_self, idx_ne _ h1]
            omega
          · refine j3.imp_of_mem fun {a b} ha hb hab => ?_
            have h1 : e ≠ a := by rintro rfl; exact ((j2 e).1 ha).2 (by simp)
            have h2 : e ≠ b := by rintro rfl; exact ((j2 e).1 hb).2 (by simp)
            rw [idx_ne _ h1, idx_ne _ h2]
            omega

/-- Without matches from the history exactly the first of each match is kept. -/
theorem C19_distinct {es : List (Option (Desc × Spec.Entry))} {keep : List Bool} (h : Spec.Keeps es keep)
    (hh : ∀ e ∈ offered es, e.type.hist = false) : Spec.Firsts (offered es) ((Spec.chosen es keep).map (·.2)) := by
  obtain ⟨h1, h2, h3⟩ := distinct_from es [] keep (keeps_from.2 h) (by simp) hh
  exact ⟨h1, fun e => by rw [h2]; simp, h3⟩

theorem run_keeps {alpha : Nat → Bool} (ops : List Spec.Op) (mode : Nat) (s s' : State) (keep : List Bool)
    (h : Spec.run alpha mode s ops = some (s', keep)) :
    s'.sep = s.sep ∧ s'.deprecated = s.deprecated ∧ s'.completion.explicit = (Spec.asked ops).or s.completion.explicit := by
  induction ops generalizing mode s keep with
  | nil => cases h; exact ⟨rfl, rfl, by simp [Spec.asked]⟩
  | cons op ops ih =>
    cases op with
    | files b =>
      obtain ⟨h1, h2, h3⟩ := ih mode _ keep h
      refine ⟨h1, h2, ?_⟩
      rw [h3]
      cases hx : Spec.asked ops <;> simp [Spec.asked, State.setFiles, hx]
    | slashes m => exact ih m s keep h
    | add d already =>
      simp only [Spec.run] at h
      cases ha : s.add alpha mode d already with
      | none => rw [ha] at h; cases h
      | some r =>
        rw [ha] at h
        simp only [Option.bind_some] at h
        cases hr : Spec.run alpha mode r.1 ops with
        | none => rw [hr] at h; cases h
        | some q =>
          rw [hr] at h
          simp only [Option.map_some, Option.some.injEq, Prod.mk.injEq] at h
          obtain ⟨h1, h2, h3⟩ := ih mode r.1 q.2 (by rw [hr, ← h.1])
          have hsame : r.1.sep = s.sep ∧ r.1.deprecated = s.deprecated ∧ r.1.completion = s.completion := by
            unfold State.add at ha
            split at ha
            · cases ha; exact ⟨rfl, rfl, rfl⟩
            · cases ha; exact ⟨rfl, rfl, rfl⟩
            · cases ha; exact ⟨rfl, rfl, rfl⟩
            · simp only [Option.map_eq_some_iff] at ha
              obtain ⟨t, -, ha⟩ := ha
              split at ha
              · cases ha; exact ⟨rfl, rfl, rfl⟩
              · cases ha; exact ⟨rfl, rfl, rfl⟩
          exact ⟨h1.trans hsame.1, h2.trans hsame.2.1, by rw [h3, hsame.2.2]; rfl⟩

/-- When the list is complete, unknown matches become files or directories, if file names are completed.  Other matches stay.
A match is dropped only if it now is the same as another one, and no two that are left are the same. -/
theorem C19_fix {alpha : Nat → Bool} (ha : AlphaOk alpha) (sep : Nat) (old : Bool) (mode : Nat) (ops : List Spec.Op) (hz : Clean ops)
    {s : State} {keep : List Bool} (hr : Spec.run alpha mode (Spec.start sep old) ops = some (s, keep)) (hn : s.infos.length < 65536)
    {probe : List Nat → MType} (hp : Spec.ProbeOk probe) (last : Nat) :
    ∃ s', s.doneBuilding probe last = some s' ∧
      (Spec.Completes old ops →
        s'.infos.Sublist (s.infos.map (Spec.fix probe (Spec.dirSep last sep))) ∧
        (∀ i ∈ s.infos, ¬ Unknown i → i ∈ s'.infos) ∧
        (∀ i ∈ s.infos, ∃ j ∈ s'.infos, Spec.Same (Spec.entry j) (Spec.fixed probe (Spec.dirSep last sep) (Spec.entry i))) ∧
        s'.infos.Pairwise fun a b => ¬ Spec.Same (Spec.entry a) (Spec.entry b)) ∧
      (¬ Spec.Completes old ops → s'.infos = s.infos) := by
  obtain ⟨s1, keep1, es, infos, h1, h2, h3, h4, h5, h6, h7⟩ := run_spec ha ops hz mode _ (building_start sep old)
  rw [hr] at h1
  cases h1
  obtain ⟨k1, k2, k3⟩ := run_keeps ops mode _ _ _ hr
  have k1' : s.sep = sep := k1
  have k2' : s.deprecated = old := k2
  have k3' : s.completion.explicit = Spec.asked ops := by rw [k3]; simp [Spec.start]
  have hgo : (if s.deprecated then s.completion.explicit == some true else s.completion.get || s.completion.explicit.isNone) = true ↔
      Spec.Completes old ops := by
    unfold Spec.Completes Shadow.get
    rw [k2', k3']
    cases old <;> rcases Spec.asked ops with _ | _ | _ <;> simp
  have hsep : (if last = 2 then 47 else if last = 3 then 92 else if last = 4 then s.sep else 92) = Spec.dirSep last sep := by
    unfold Spec.dirSep
    rw [k1']
    by_cases h2 : last = 2
    · simp [h2]
    · by_cases h3 : last = 3
      · simp [h3]
      · simp [h2, h3]
  have hcount : s.count = s.infos.length := by rw [h5.count, Nat.mod_eq_of_lt hn]
  unfold State.doneBuilding
  simp only
  rw [hsep]
  by_cases hc : Spec.Completes old ops
  · have hg := hgo.2 hc
    rw [hg]
    cases hany : s.anyNone with
    | false =>
      have hid : ∀ i ∈ s.infos, ¬ Unknown i := by
        intro i hi hu
        have := h5.none_ i hi hu.1
        rw [hany] at this; cases this
      have hf : ∀ i ∈ s.infos, Spec.fixed probe (Spec.dirSep last sep) (Spec.entry i) = Spec.entry i := by
        intro i hi
        unfold Spec.fixed
        rw [if_neg]
        exact hid i hi
      simp only [Bool.false_and, Bool.false_eq_true, if_false, Option.map_some]
      refine ⟨_, rfl, fun _ => ⟨?_, fun i hi _ => hi, fun i hi => ⟨i, hi, by rw [hf i hi]; exact ⟨rfl, .inl rfl⟩⟩, h5.pairwise⟩, fun h => absurd hc h⟩
      have : s.infos.map (Spec.fix probe (Spec.dirSep last sep)) = s.infos.map id := by
        refine List.map_congr_left fun i hi => ?_
        unfold Spec.fix
        rw [hf i hi]
        rfl
      rw [this, List.map_id]
      exact List.Sublist.refl _
    | true =>
      obtain ⟨s', M, g1, g2, g3, g4, g5, g6, -⟩ := fixLoop_spec hp (Spec.dirSep last sep) s.count s s.infos [] (by simp) hcount.symm
        ⟨h5.dedup, h5.apart, h5.pairwise⟩
      simp only [Bool.and_self, if_true]
      rw [g1]
      rw [List.append_nil] at g2
      subst g2
      exact ⟨_, rfl, fun _ => ⟨g3, g5, g6, g4.pairwise⟩, fun h => absurd hc h⟩
  · have hg : (if s.deprecated then s.completion.explicit == some true else s.completion.get || s.completion.explicit.isNone) = false := by
      cases hb : (if s.deprecated then s.completion.explicit == some true else s.completion.get || s.completion.explicit.isNone) with
      | false => rfl
      | true => exact absurd (hgo.1 hb) hc
    rw [hg]
    simp only [Bool.and_false, Bool.false_eq_true, if_false]
    exact ⟨_, rfl, fun h => absurd h hc, fun _ => rfl⟩

/-! Directories. -/

theorem map_sep_drop {sep : Nat} (hs : isSep sep = true) (l : List Nat) :
    (l.map fun c => if isSep c then sep else c).dropWhile isSep = (l.dropWhile isSep).map fun c => if isSep c then sep else c := by
  induction l with
  | nil => rfl
  | cons c l ih =>
    rw [List.map_cons]
    by_cases h : isSep c = true
    · rw [if_pos h, List.dropWhile_cons_of_pos hs, List.dropWhile_cons_of_pos h, ih]
    · have h' : isSep c = false := by simpa using h
      rw [if_neg h, List.dropWhile_cons_of_neg h, List.dropWhile_cons_of_neg h]
      simp [h']

theorem map_bareDrive {alpha : Nat → Bool} (ha : AlphaOk alpha) {sep : Nat} (hs : isSep sep = true) {l : List Nat} (h : Spec.bareDrive alpha l = true) :
    Spec.bareDrive alpha (l.map fun c => if isSep c then sep else c) = true := by
  have two : ∀ c, alpha c = true → ([c, 58].map fun c => if isSep c then sep else c) = [c, 58] := by
    intro c hc
    have h1 : isSep c = false := by
      cases hx : isSep c with
      | false => rfl
      | true => rw [ha.sep c hx] at hc; cases hc
    have h2 : isSep 58 = false := rfl
    simp [h1, h2]
  unfold Spec.bareDrive at h
  split at h
  · rename_i c
    rw [two c h]
    exact h
  · rename_i a b d r
    simp only [Bool.and_eq_true] at h
    have h63 : isSep 63 = false := rfl
    obtain ⟨⟨⟨h1, h2⟩, h3⟩, h4⟩ := h
    split at h4
    · rename_i c hc
      simp only [List.map_cons, h1, h2, h3, h63, Bool.false_eq_true, if_true, if_false]
      simp only [Spec.bareDrive, hs, map_sep_drop hs, hc, two c h4, h4, Bool.and_self]
    · cases h4
  · cases h

theorem meant_dir {alpha : Nat → Bool} (ha : AlphaOk alpha) {mode sep : Nat} (hs : sep = 0 ∨ isSep sep = true) {files already : Bool} {text : List Nat}
    {type : MType} {e : Spec.Entry} (h : Spec.Meant alpha mode sep files already text type e) (hd : e.type.base = 7) :
    Spec.Ends e.text ∨ Spec.bareDrive alpha e.text = true := by
  obtain ⟨t, ht, htext⟩ := h.text
  have h1 : Spec.Ends t ∨ Spec.bareDrive alpha t = true := by
    split at ht
    · rw [ht]; left; unfold Spec.Ends; simp [isSep]
    · rename_i hn
      rw [ht]
      by_cases he : Spec.Ends text
      · exact .inl he
      · right
        cases hb : Spec.bareDrive alpha text with
        | true => rfl
        | false => exact absurd ⟨hd, he, hb⟩ hn
  split at htext
  · rw [htext]
    obtain ⟨c, hc⟩ : ∃ c, c = (if mode = 2 then 47 else if mode = 4 ∧ sep ≠ 0 then sep else 92) := ⟨_, rfl⟩
    have hcs : isSep c = true := by
      rw [hc]
      split
      · rfl
      · split
        · rename_i h; exact hs.resolve_left h.2
        · rfl
    rw [← hc]
    rcases h1 with h1 | h1
    · left
      unfold Spec.Ends at h1 ⊢
      rw [List.getLast?_map]
      cases hl : t.getLast? with
      | none => rw [hl] at h1; cases h1
      | some x =>
        rw [hl] at h1
        have hx : isSep x = true := by simpa using h1
        simp [hx, hcs]
    · exact .inr (map_bareDrive ha hcs h1)
  · rw [htext]; exact h1

theorem offers_meant {alpha : Nat → Bool} {sep mode : Nat} {files : Bool} {ops : List Spec.Op} {es : List (Option (Desc × Spec.Entry))}
    (h : Spec.Offers alpha sep mode files ops es) {d : Desc} {e : Spec.Entry} (he : some (d, e) ∈ es) :
    ∃ mode files already text, Spec.Meant alpha mode sep files already text d.type e := by
  induction h with
  | nil => simp at he
  | empty _ _ ih => exact ih (by simpa using he)
  | add _ _ hm _ ih =>
    rcases List.mem_cons.1 he with h | h
    · cases h; exact ⟨_, _, _, _, hm⟩
    · exact ih h
  | files _ ih => exact ih he
  | slashes _ ih => exact ih he

theorem chosen_mem {es : List (Option (Desc × Spec.Entry))} {keep : List Bool} {x : Desc × Spec.Entry} (h : x ∈ Spec.chosen es keep) : some x ∈ es := by
  unfold Spec.chosen at h
  obtain ⟨⟨o, k⟩, h1, h2⟩ := List.mem_filterMap.1 h
  simp only at h2
  split at h2
  · rw [← h2]; exact (List.of_mem_zip h1).1
  · cases h2

/-- When the list is complete, all directories in it end with a separator, except for drives.  In automatic mode this needs a
separator to be known. -/
theorem C19_dirs {alpha : Nat → Bool} (ha : AlphaOk alpha) {sep : Nat} (hs : sep = 0 ∨ isSep sep = true) (old : Bool) (mode : Nat) (ops : List Spec.Op)
    (hz : Clean ops) {s : State} {keep : List Bool} (hr : Spec.run alpha mode (Spec.start sep old) ops = some (s, keep))
    (hn : s.infos.length < 65536) {probe : List Nat → MType} (hp : Spec.ProbeOk probe) {last : Nat} (hl : last ≠ 4 ∨ sep ≠ 0) {s' : State}
    (hd : s.doneBuilding probe last = some s') {info : Info} (hi : info ∈ s'.infos) (hb : info.type.base = 7) :
    Spec.Ends info.text ∨ Spec.bareDrive alpha info.text = true := by
  have hall : ∀ i ∈ s.infos, i.type.base = 7 → Spec.Ends i.text ∨ Spec.bareDrive alpha i.text = true := by
    obtain ⟨s1, keep1, es, h1, h2, h3, h4, h5, -⟩ := C19_kept ha sep old mode ops hz
    rw [hr] at h1
    cases h1
    intro i hi hb
    obtain ⟨n, hlt, rfl⟩ := List.mem_iff_getElem.1 hi
    have hlt2 : n < (Spec.chosen es keep).length := by omega
    obtain ⟨d, e, hx⟩ : ∃ d e, (Spec.chosen es keep)[n] = (d, e) := ⟨_, _, rfl⟩
    have hsh := h5 n s.infos[n] d e (List.getElem?_eq_getElem hlt) (by rw [List.getElem?_eq_getElem hlt2, hx])
    have hm := chosen_mem (List.getElem_mem hlt2)
    rw [hx] at hm
    obtain ⟨m, f, al, t, hm⟩ := offers_meant h2 hm
    rw [hsh.text]
    rw [hsh.type] at hb
    exact meant_dir ha hs hm hb
  obtain ⟨s2, g1, g2, g3⟩ := C19_fix ha sep old mode ops hz hr hn hp last
  rw [hd] at g1
  cases g1
  by_cases hc : Spec.Completes old ops
  · obtain ⟨i, hi2, rfl⟩ := List.mem_map.1 ((g2 hc).1.subset hi)
    unfold Spec.fix at hb ⊢
    simp only at hb ⊢
    unfold Spec.fixed at hb ⊢
    split at hb
    · rename_i hu
      rw [if_pos hu]
      simp only at hb ⊢
      have hds : isSep (Spec.dirSep last sep) = true := by
        unfold Spec.dirSep
        split
        · rfl
        · split
          · rename_i h4
            exact hs.resolve_left (hl.resolve_left (fun h => h h4))
          · rfl
      have hd0 : Spec.dirSep last sep ≠ 0 := by
        intro h; rw [h] at hds; cases hds
      rw [if_pos ⟨hb, hd0⟩]
      left
      unfold Spec.Ends
      simp [hds]
    · rename_i hu
      rw [if_neg hu]
      exact hall i hi2 hb
  · rw [g3 hc] at hi
    exact hall info hi hb

private def bs (s : String) : List Nat := s.toList.map Char.toNat
private def az (c : Nat) : Bool := (65 ≤ c && c ≤ 90) || (97 ≤ c && c ≤ 122)
private def add (s : String) (t : MType) : Spec.Op := .add { text := some (bs s), type := t } false
private def texts (o : Option (State × List Bool)) : Option (List (List Nat × MType) × List Bool) := o.map fun r => (r.1.infos.map fun i => (i.text, i.type), r.2)

private def word : MType := ⟨2, false, false, 0, false⟩
private def arg : MType := ⟨3, false, false, 0, false⟩
private def file : MType := ⟨6, false, false, 0, false⟩
private def dir : MType := ⟨7, false, false, 0, false⟩
private def unknown : MType := ⟨1, false, false, 0, false⟩
private def hist (t : MType) : MType := { t with hist := true }

theorem az_good : AlphaOk az := by
  refine ⟨by decide, fun c hc => ?_⟩
  have : c = 47 ∨ c = 92 := by simpa [isSep, Bool.or_eq_true] using hc
  rcases this with rfl | rfl <;> decide

private def demo : List Spec.Op :=
  [add "src/" unknown, add "a.txt" file, add "src" dir, .files true, add "a.txt" word, add "a.txt" file, add "" word, add "c:" dir, add "b" unknown, add "b" (hist word)]

example : texts (Spec.run az 3 (Spec.start 0 false) demo) =
    some ([(bs "src\\", dir), (bs "a.txt", file), (bs "a.txt", word), (bs "c:", dir), (bs "b", unknown)],
      [true, true, false, true, false, false, true, true, false]) := by decide +kernel

theorem demo_clean : Clean demo := by
  intro d al t h ht
  simp only [demo, add, List.mem_cons, Spec.Op.add.injEq, reduceCtorEq, false_or, List.not_mem_nil, or_false] at h
  rcases h with ⟨rfl, -⟩ | ⟨rfl, -⟩ | ⟨rfl, -⟩ | ⟨rfl, -⟩ | ⟨rfl, -⟩ | ⟨rfl, -⟩ | ⟨rfl, -⟩ | ⟨rfl, -⟩ | ⟨rfl, -⟩ <;>
    (cases ht; decide)

example : Spec.Completes false demo := by decide
example : ¬ Spec.Completes true [add "a" unknown] := by decide

/-- The file system of the examples: `b` is a directory. -/
private def probe (t : List Nat) : MType := if t = bs "b" then dir else file

theorem probe_good : Spec.ProbeOk probe := by
  intro t
  unfold probe
  split <;> decide

private def done (mode : Nat) (o : Option (State × List Bool)) : Option (List (List Nat × MType)) :=
  o.bind fun r => (r.1.doneBuilding probe mode).map fun s => s.infos.map fun i => (i.text, i.type)

example : done 3 (Spec.run az 3 (Spec.start 0 false) demo) =
    some [(bs "src\\", dir), (bs "a.txt", file), (bs "a.txt", word), (bs "c:", dir), (bs "b\\", dir)] := by decide +kernel
example : done 3 (Spec.run az 3 (Spec.start 0 false) (demo ++ [.files false])) =
    some [(bs "src\\", dir), (bs "a.txt", file), (bs "a.txt", word), (bs "c:", dir), (bs "b", unknown)] := by decide +kernel

/-- Being the same is not transitive: with a match from the history the order decides how many are kept. -/
theorem C19_history_order :
    texts (Spec.run az 0 (Spec.start 0 false) [add "a" word, add "a" (hist word), add "a" arg]) =
      some ([(bs "a", word), (bs "a", arg)], [true, false, true]) ∧
    texts (Spec.run az 0 (Spec.start 0 false) [add "a" (hist word), add "a" word, add "a" arg]) =
      some ([(bs "a", hist word)], [true, false, false]) := by decide +kernel

/-- In automatic mode without a known separator a directory that is found in the file system gets none. -/
theorem C19_no_separator :
    done 4 (Spec.run az 4 (Spec.start 0 false) [add "b" unknown]) = some [(bs "b", dir)] ∧
    done 4 (Spec.run az 4 (Spec.start 47 false) [add "b" unknown]) = some [(bs "b/", dir)] ∧
    texts (Spec.run az 4 (Spec.start 0 false) [add "b" dir]) = some ([(bs "b\\", dir)], [true]) := by decide +kernel

/-- A match that is dropped when the list is complete still counts: the list has one element, and reading the second one
reads outside of the vector. -/
theorem C19_count_stays :
    ∃ s : State, ((Spec.run az 0 (Spec.start 0 false) [add "x" unknown, add "x" file]).bind fun r => r.1.doneBuilding probe 0) = some s ∧
      (s.infos.map fun i => (i.text, i.type)) = [(bs "x", file)] ∧ s.count = 2 ∧ s.get 1 = none := by
  refine ⟨_, (Option.some_get (by decide +kernel)).symm, ?_, ?_, ?_⟩ <;> decide +kernel

/-! Too many matches. -/

/-- Different words. -/
def manyText (n : Nat) : List Nat := [n / 4096 + 1, n / 64 % 64 + 1, n % 64 + 1]

def manyOps (N : Nat) : List Spec.Op := (List.range N).map fun n => .add { text := some (manyText n), type := ⟨2, false, false, 0, false⟩ } false

theorem many_inj {n m : Nat} (h : manyText n = manyText m) : n = m := by
  unfold manyText at h
  simp only [List.cons.injEq, Nat.add_right_cancel_iff, and_true] at h
  omega

theorem offers_words {alpha : Nat → Bool} {sep mode : Nat} {files : Bool} (l : List Nat) {es : List (Option (Desc × Spec.Entry))}
    (h : Spec.Offers alpha sep mode files (l.map fun n => .add { text := some (manyText n), type := ⟨2, false, false, 0, false⟩ } false) es) :
    offered es = l.map fun n => ⟨manyText n, ⟨2, false, false, 0, false⟩⟩ := by
  induction l generalizing es with
  | nil => cases h; rfl
  | cons n l ih =>
    cases h with
    | empty hd _ => rcases hd with hd | hd <;> cases hd
    | add hd hne he h =>
      rename_i e es
      cases hd
      have hk : e.type = ⟨2, false, false, 0, false⟩ := by rw [he.kind]; simp
      obtain ⟨t, ht, htext⟩ := he.text
      rw [hk] at ht htext
      simp at ht htext
      have : offered (some (({ text := some (manyText n), type := ⟨2, false, false, 0, false⟩ } : Desc), e) :: es) = e :: offered es := rfl
      rw [this, ih h, List.map_cons]
      congr 1
      cases e
      simp only at hk htext
      rw [hk, htext, ht]

/-- 65536 different matches are counted as none, and none of them can be read. -/
theorem C19_count_wraps {alpha : Nat → Bool} (ha : AlphaOk alpha) :
    ∃ s keep, Spec.run alpha 0 (Spec.start 0 false) (manyOps 65536) = some (s, keep) ∧ s.infos.length = 65536 ∧ s.count = 0 ∧
      ∀ i, s.get i = some none := by
  have hz : Clean (manyOps 65536) := by
    intro d al t h ht
    obtain ⟨n, -, hn⟩ := List.mem_map.1 h
    cases hn
    cases ht
    simp [manyText]
  obtain ⟨s, keep, es, h1, h2, h3, h4, h5, h6⟩ := C19_kept ha 0 false 0 (manyOps 65536) hz
  have ho := offers_words _ h2
  have hd := C19_distinct h3 (by
    rw [ho]
    intro e he
    obtain ⟨n, -, rfl⟩ := List.mem_map.1 he
    rfl)
  have hnd : (offered es).Nodup := by
    rw [ho]
    refine List.pairwise_map.2 (List.Pairwise.imp (fun {n m} hne h => hne ?_) List.nodup_range)
    simp only [Spec.Entry.mk.injEq, and_true] at h
    exact many_inj h
  have hlen : s.infos.length = 65536 := by
    have hp : ((Spec.chosen es keep).map (·.2)).Perm (offered es) := (List.perm_ext_iff_of_nodup hd.nodup hnd).2 hd.all
    have := hp.length_eq
    rw [List.length_map, ho, List.length_map, List.length_range] at this
    rw [h4, this]
  have hc : s.count = 0 := by rw [h6, hlen]
  refine ⟨s, keep, h1, hlen, hc, fun i => ?_⟩
  unfold State.get
  rw [hc, if_pos (Nat.zero_le i)]

end Clink.Matches
