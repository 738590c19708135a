import Verif.Proof.SettingsMaps
import Verif.Spec.Sandbox

/-! Changing settings in the file. -/

namespace Clink.Settings

open Spec
open Color (bs)

theorem emplace_new {e : Loaded} {l : List Loaded} (h : l.Pairwise fun a b => Before a.name b.name) (hn : ∀ f ∈ l, f.name ≠ e.name) :
    ∃ a b, l = a ++ b ∧ (∀ f ∈ a, Before f.name e.name) ∧ (∀ f ∈ b, Before e.name f.name) ∧ emplace e l = a ++ e :: b := by
  induction l with
  | nil => exact ⟨[], [], rfl, by simp, by simp, rfl⟩
  | cons g l ih =>
    obtain ⟨h1, h2⟩ := List.pairwise_cons.1 h
    rw [emplace]
    by_cases hb : before e.name g.name = true
    · rw [if_pos hb]
      rw [before_iff] at hb
      refine ⟨[], g :: l, rfl, by simp, ?_, rfl⟩
      intro f hf
      rcases List.mem_cons.1 hf with rfl | hf
      · exact hb
      · exact before_trans hb (h1 f hf)
    · rw [if_neg hb, if_neg fun he => hn g (by simp) he.symm]
      obtain ⟨a, b, rfl, ha, hb', he⟩ := ih h2 fun f hf => hn f (List.mem_cons_of_mem _ hf)
      refine ⟨g :: a, b, rfl, ?_, hb', by rw [he]; rfl⟩
      intro f hf
      rcases List.mem_cons.1 hf with rfl | hf
      · exact before_total (fun h => hb (before_iff.2 h)) fun h => hn f (by simp) h.symm
      · exact ha f hf

theorem emplace_old {e : Loaded} {l : List Loaded} (h : l.Pairwise fun a b => Before a.name b.name) (hn : ∃ f ∈ l, f.name = e.name) : emplace e l = l := by
  induction l with
  | nil => obtain ⟨f, hf, -⟩ := hn; cases hf
  | cons g l ih =>
    obtain ⟨h1, h2⟩ := List.pairwise_cons.1 h
    obtain ⟨f, hf, he⟩ := hn
    rw [emplace]
    rcases List.mem_cons.1 hf with rfl | hf
    · rw [if_neg, if_pos he.symm]
      rw [he, before_iff]
      exact before_irrefl _
    · have hb := h1 f hf
      rw [he] at hb
      rw [if_neg, if_neg, ih h2 ⟨f, hf, he⟩]
      · intro h
        rw [h] at hb
        exact before_irrefl _ hb
      · rw [before_iff]
        exact fun h => before_asymm h hb

/-- A known setting that is replaced. -/
theorem inv_replace {env : Env} {custom : Custom} {st : State} (h : Inv env custom st) {i : Nat} {s t : Setting} (hs : st.known[i]? = some s)
    (ht : (t.name, t.desc, t.ty) = (s.name, s.desc, s.ty)) (h1 : t.save = true → (∀ d, t.ty ≠ .color d) → ValOk env.lower t.ty t.val)
    (h2 : t.save = false → t.reset env custom = t) :
    Inv env custom ⟨st.known.set i t, st.loaded⟩ ∧ SameDecl (st.known.set i t) st.known := by
  obtain ⟨k1, k2⟩ := known_set h.known hs ht
  refine ⟨⟨k1, ?_, ?_, fun l hl => ⟨(h.extra l hl).1, extra_names k2.symm (h.extra l hl).2⟩, h.sorted⟩, ?_⟩
  · intro x hx hsv hc
    rcases List.mem_or_eq_of_mem_set hx with hx | rfl
    · exact h.saved x hx hsv hc
    · exact h1 hsv hc
  · intro x hx hsv
    rcases List.mem_or_eq_of_mem_set hx with hx | rfl
    · exact h.unsaved x hx hsv
    · exact h2 hsv
  · unfold SameDecl
    apply List.ext_getElem?
    intro j
    rw [List.getElem?_map, List.getElem?_map, List.getElem?_set]
    split
    · rename_i hij
      subst hij
      split
      · rw [hs, Option.map_some, Option.map_some, ht]
      · rw [List.getElem?_eq_none (by omega)]
    · rfl

theorem split_at {known : List Setting} {i : Nat} {s : Setting} (h : known[i]? = some s) :
    ∃ pre post, known = pre ++ s :: post ∧ ∀ t, known.set i t = pre ++ t :: post := by
  obtain ⟨hi, rfl⟩ := List.getElem?_eq_some_iff.1 h
  refine ⟨known.take i, known.drop (i + 1), ?_, fun t => ?_⟩
  · rw [List.getElem_cons_drop, List.take_append_drop]
  · rw [List.set_eq_take_append_cons_drop, if_pos hi]

theorem overlay_one {env : Env} (ok : AtoiOk env.atoi) {custom : Custom} (hcu : CustomOk custom) {st : State} (h : Inv env custom st)
    (hc : ColoursOk st.known) (hr : ColoursOk (st.known.map (·.reset env custom))) {o : List Nat × Option (List Nat)} (ho : ChangeOk env st.known o) :
    Inv env custom (overlayOne env custom st o.1 o.2) ∧ SameDecl (overlayOne env custom st o.1 o.2).known st.known ∧
      ColoursOk (overlayOne env custom st o.1 o.2).known ∧ Changes env custom o.1 o.2 st (overlayOne env custom st o.1 o.2) := by
  obtain ⟨n, v⟩ := o
  have hshort : ∀ s ∈ st.known, s.name.length ≤ 32 := fun s hs => (h.known.decl s hs).short
  cases v with
  | some v =>
    show Inv env custom (setSetting env st n v none).1 ∧ SameDecl (setSetting env st n v none).1.known st.known ∧
      ColoursOk (setSetting env st n v none).1.known ∧ Changes env custom n (some v) st (setSetting env st n v none).1
    unfold setSetting
    cases hi : findIdx st.known n with
    | none =>
      have hu := findIdx_none hi
      simp only
      cases hf : st.loaded.find? (·.name == n) with
      | some l =>
        have hl := List.mem_of_find?_eq_some hf
        have hln : l.name = n := by simpa using List.find?_some hf
        simp only
        rw [emplace_old h.sorted ⟨l, hl, hln⟩]
        exact ⟨h, rfl, hc, .kept hu hl hln⟩
      | none =>
        have hn : ∀ f ∈ st.loaded, f.name ≠ n := by
          intro f hf'
          have := List.find?_eq_none.1 hf f hf'
          simpa using this
        simp only
        obtain ⟨a, b, hab, ha, hb, he⟩ := emplace_new (e := ⟨n, [], v, false⟩) h.sorted hn
        refine ⟨⟨h.known, h.saved, h.unsaved, ?_, emplace_sorted h.sorted⟩, rfl, hc, ?_⟩
        · intro l hl
          rcases emplace_mem hl with rfl | hl
          · exact ⟨rfl, hu, ho.name, ho.value v rfl, .nil, ho.auto v rfl⟩
          · exact h.extra l hl
        · rw [he]
          obtain ⟨known, loaded⟩ := st
          cases hab
          exact .new hu ha hb
    | some i =>
      simp only
      cases hs : st.known[i]? with
      | none =>
        exfalso
        unfold findIdx at hi
        have lt : ∀ m : List Nat, st.known.findIdx? (fun s => same s.name m) = some i → False := by
          intro m hm
          have := (List.findIdx?_eq_some_iff_getElem.1 hm).1
          rw [List.getElem?_eq_none_iff] at hs
          omega
        split at hi
        · cases hi; exact lt _ (by assumption)
        · split at hi
          · exact lt _ hi
          · cases hi
      | some s =>
        have hm : s ∈ st.known := List.mem_of_getElem? hs
        have hn := (names_iff hshort h.known.differ hs n).1 hi
        simp only
        cases hp : parse env s.ty v with
        | none =>
          have : s.set env v = (s, false) := by unfold Setting.set; rw [hp]
          rw [this]
          have e : st.known.set i s = st.known := by
            obtain ⟨hlt, rfl⟩ := List.getElem?_eq_some_iff.1 hs
            exact List.set_getElem_self hlt
          simp only [e]
          exact ⟨h, rfl, hc, .refused hm hn hp⟩
        | some x =>
          have : s.set env v = ({ s with val := x, save := true }, true) := by unfold Setting.set; rw [hp]
          rw [this]
          simp only
          obtain ⟨i1, i2⟩ := inv_replace h hs (t := { s with val := x, save := true }) rfl
            (fun _ hcol => parse_ok ok (h.known.enum s hm) hcol (ho.value v rfl) hp) (fun h => by cases h)
          refine ⟨i1, i2, ?_, ?_⟩
          · intro t ht d hd hsv
            rcases List.mem_or_eq_of_mem_set ht with ht | rfl
            · exact hc t ht d hd hsv
            · simp only at hd
              rw [hd] at hp
              unfold parse at hp
              obtain ⟨code, hcode, rfl⟩ := Option.map_eq_some_iff.1 hp
              exact ⟨code, rfl, ho.colour v rfl s hm hn d hd code hcode⟩
          · obtain ⟨pre, post, e1, e2⟩ := split_at hs
            rw [e2]
            obtain ⟨known, loaded⟩ := st
            cases e1
            exact .set hn hp
  | none =>
    show Inv env custom (clearSetting env custom st n) ∧ SameDecl (clearSetting env custom st n).known st.known ∧
      ColoursOk (clearSetting env custom st n).known ∧ Changes env custom n none st (clearSetting env custom st n)
    unfold clearSetting
    cases hi : findIdx st.known n with
    | none =>
      have hu := findIdx_none hi
      simp only
      refine ⟨⟨h.known, h.saved, h.unsaved, fun l hl => h.extra l (List.mem_filter.1 hl).1, h.sorted.filter _⟩, rfl, hc, ?_⟩
      by_cases hex : ∃ l ∈ st.loaded, l.name = n
      · obtain ⟨l, hl, hln⟩ := hex
        obtain ⟨a, b, hab⟩ := List.append_of_mem hl
        have hp := h.sorted
        rw [hab] at hp
        have e : st.loaded.filter (fun l => l.name != n) = a ++ b := by
          rw [hab, List.filter_append, List.filter_cons, if_neg (by simp [hln])]
          obtain ⟨p1, p2, p3⟩ := List.pairwise_append.1 hp
          rw [List.filter_eq_self.2, List.filter_eq_self.2]
          · intro f hf
            have := (List.pairwise_cons.1 p2).1 f hf
            simp only [bne_iff_ne, ne_eq]
            intro he
            rw [he, hln] at this
            exact before_irrefl _ this
          · intro f hf
            have := p3 f hf l (by simp)
            simp only [bne_iff_ne, ne_eq]
            intro he
            rw [he, hln] at this
            exact before_irrefl _ this
        rw [e]
        obtain ⟨known, loaded⟩ := st
        cases hab
        exact .dropped hu hln
      · have e : st.loaded.filter (fun l => l.name != n) = st.loaded := by
          rw [List.filter_eq_self]
          intro l hl
          simp only [bne_iff_ne, ne_eq]
          exact fun he => hex ⟨l, hl, he⟩
        rw [e]
        exact .absent hu fun l hl he => hex ⟨l, hl, he⟩
    | some i =>
      simp only
      cases hs : st.known[i]? with
      | none =>
        exfalso
        unfold findIdx at hi
        have lt : ∀ m : List Nat, st.known.findIdx? (fun s => same s.name m) = some i → False := by
          intro m hm
          have := (List.findIdx?_eq_some_iff_getElem.1 hm).1
          rw [List.getElem?_eq_none_iff] at hs
          omega
        split at hi
        · cases hi; exact lt _ (by assumption)
        · split at hi
          · exact lt _ hi
          · cases hi
      | some s =>
        have hm : s ∈ st.known := List.mem_of_getElem? hs
        have hn := (names_iff hshort h.known.differ hs n).1 hi
        obtain ⟨r1, r2⟩ := reset_facts ok hcu (h.known.decl s hm) (h.known.enum s hm)
        obtain ⟨i1, i2⟩ := inv_replace h hs (t := s.reset env custom) rfl r2 (fun _ => r1)
        refine ⟨i1, i2, ?_, ?_⟩
        · intro t ht d hd hsv
          rcases List.mem_or_eq_of_mem_set ht with ht | rfl
          · exact hc t ht d hd hsv
          · exact hr _ (List.mem_map_of_mem hm) d hd hsv
        · obtain ⟨pre, post, e1, e2⟩ := split_at hs
          simp only
          rw [e2]
          obtain ⟨known, loaded⟩ := st
          cases e1
          exact .clear hn

theorem overlay_all {env : Env} (ok : AtoiOk env.atoi) {custom : Custom} (hcu : CustomOk custom) (overlay : List (List Nat × Option (List Nat)))
    {st : State} (h : Inv env custom st) (hc : ColoursOk st.known) (hr : ColoursOk (st.known.map (·.reset env custom)))
    (ho : ∀ o ∈ overlay, ChangeOk env st.known o) :
    Inv env custom (overlay.foldl (fun st o => overlayOne env custom st o.1 o.2) st) ∧
      SameDecl (overlay.foldl (fun st o => overlayOne env custom st o.1 o.2) st).known st.known ∧
      ColoursOk (overlay.foldl (fun st o => overlayOne env custom st o.1 o.2) st).known ∧
      AllChange env custom overlay st (overlay.foldl (fun st o => overlayOne env custom st o.1 o.2) st) := by
  induction overlay generalizing st with
  | nil => exact ⟨h, rfl, hc, .nil⟩
  | cons o overlay ih =>
    obtain ⟨h1, h2, h3, h4⟩ := overlay_one ok hcu h hc hr (ho o (by simp))
    have hr' : ColoursOk ((overlayOne env custom st o.1 o.2).known.map (·.reset env custom)) := by
      rw [reset_all h2 h.known.decl]
      exact hr
    have ho' : ∀ p ∈ overlay, ChangeOk env (overlayOne env custom st o.1 o.2).known p := by
      intro p hp
      have := ho p (List.mem_cons_of_mem _ hp)
      refine ⟨this.name, this.value, this.auto, ?_⟩
      intro v hv s hs hn d hd code hcode
      have hmem : (s.name, s.desc, s.ty) ∈ (overlayOne env custom st o.1 o.2).known.map fun s => (s.name, s.desc, s.ty) := List.mem_map_of_mem hs
      rw [h2] at hmem
      obtain ⟨t, ht, hte⟩ := List.mem_map.1 hmem
      simp only [Prod.mk.injEq] at hte
      refine this.colour v hv t ht ?_ d (by rw [hte.2.2]; exact hd) code hcode
      unfold Names at *
      rw [hte.1]
      exact hn
    obtain ⟨g1, g2, g3, g4⟩ := ih h1 h3 hr' ho'
    exact ⟨g1, g2.trans h2, g3, .cons h4 g4⟩

/-! ### The session -/

theorem rollback_known {env : Env} (ok : AtoiOk env.atoi) {old new : List Setting} (hk : KnownOk env.lower old) (hd : SameDecl new old) {i : Nat} {s : Setting}
    (hs : old[i]? = some s) (hcol : ∀ d, s.ty ≠ .color d) (hv : ValOk env.lower s.ty s.val) :
    (new.map (rollback env old))[i]? = some { s with save := true } := by
  have hsame : (new.map fun s => (s.name, s.desc, s.ty))[i]? = some (s.name, s.desc, s.ty) := by
    rw [hd, List.getElem?_map, hs]
    rfl
  rw [List.getElem?_map] at hsame ⊢
  obtain ⟨t, ht, hte⟩ := Option.map_eq_some_iff.1 hsame
  simp only [Prod.mk.injEq] at hte
  rw [ht, Option.map_some]
  congr 1
  have hfind : old.find? (·.name == t.name) = some s := by
    obtain ⟨hi, rfl⟩ := List.getElem?_eq_some_iff.1 hs
    rw [List.find?_eq_some_iff_getElem]
    refine ⟨by simp [hte.1], i, hi, rfl, ?_⟩
    intro j hj
    have := List.pairwise_iff_getElem.1 hk.differ j i (by omega) hi hj
    simp only [Bool.not_eq_true', beq_eq_false_iff_ne, ne_eq]
    intro he
    apply this
    rw [he, hte.1]
    exact sameName_refl _
  unfold rollback
  rw [hfind]
  simp only
  have hm : s ∈ old := List.mem_of_getElem? hs
  have hround : parse env s.ty (get s.ty s.val) = some s.val := by
    obtain ⟨w, h1, -, h3⟩ := value_round ok (s := { s with name := [] })
      ⟨⟨⟨⟨.nil, by simp, by simp⟩, by simp⟩, by simp, by simp, by simp⟩, by simp, (hk.decl s hm).desc, (hk.decl s hm).color,
        fun h => absurd (show ([] : List Nat).length = (bs "clink.autoupdate").length from h.1) (by decide)⟩ hv
    have hdesc : descriptive s.ty s.val = some (get s.ty s.val) := by
      unfold descriptive
      split
      · rename_i heq _
        exact absurd heq (hcol _)
      · rfl
    simp only at h1 h3
    rw [hdesc] at h1
    cases h1
    rw [autoupdate_other (fun h => absurd (show ([] : List Nat).length = (bs "clink.autoupdate").length from h.1) (by decide))] at h3
    exact h3
  unfold Setting.set
  rw [hte.2.2, hround]
  obtain ⟨t1, t2, t3, t4, t5⟩ := t
  simp only at hte
  obtain ⟨rfl, rfl, rfl⟩ := hte
  rfl

theorem rollback_decl {env : Env} {old known new : List Setting} (h : SameDecl new known) : SameDecl (new.map (rollback env old)) known := by
  refine Eq.trans ?_ h
  rw [List.map_map]
  apply List.map_congr_left
  intro s _
  simp only [Function.comp_apply]
  unfold rollback Setting.set
  split
  · split <;> rfl
  · rfl

/-! ### Declarations do not change -/

theorem load_decl (env : Env) (custom : Custom) (st : State) (file : Option (List Nat)) : SameDecl (load env custom st file).known st.known := by
  have hdecl : SameDecl (st.known.map (·.reset env custom)) st.known := by
    unfold SameDecl
    rw [List.map_map]
    rfl
  have fold : ∀ (es : List Entry) (s0 : State), SameDecl (es.foldl (addEntry env) s0).known s0.known := by
    intro es
    induction es with
    | nil => intro s0; rfl
    | cons e es ih => intro s0; exact (ih _).trans (addEntry_decl env s0 e)
  unfold load
  cases file with
  | none => exact hdecl
  | some text => exact (fold (loadInternal text) _).trans hdecl

theorem set_decl {known : List Setting} {i : Nat} {s t : Setting} (hs : known[i]? = some s) (ht : (t.name, t.desc, t.ty) = (s.name, s.desc, s.ty)) :
    SameDecl (known.set i t) known := by
  unfold SameDecl
  apply List.ext_getElem?
  intro j
  rw [List.getElem?_map, List.getElem?_map, List.getElem?_set]
  split
  · rename_i hij
    subst hij
    split
    · rw [hs, Option.map_some, Option.map_some, ht]
    · rw [List.getElem?_eq_none (by omega)]
  · rfl

theorem setSetting_decl (env : Env) (st : State) (n v : List Nat) (c : Option (List Nat)) : SameDecl (setSetting env st n v c).1.known st.known := by
  unfold setSetting
  split
  · rfl
  · split
    · rfl
    · rename_i hs
      refine set_decl hs ?_
      unfold Setting.set
      split <;> rfl

theorem setNull_decl {env : Env} {st : State} {n : List Nat} {r : State × Bool} (h : setNull env st n = some r) : SameDecl r.1.known st.known := by
  unfold setNull at h
  split at h
  · cases h
  · split at h
    · cases h
    · rename_i hs
      obtain ⟨x, -, rfl⟩ := Option.map_eq_some_iff.1 h
      cases x with
      | none => rfl
      | some v => exact set_decl hs rfl

theorem overlayOne_decl (env : Env) (custom : Custom) (st : State) (n : List Nat) (v : Option (List Nat)) :
    SameDecl (overlayOne env custom st n v).known st.known := by
  unfold overlayOne
  cases v with
  | some v => exact setSetting_decl env st n v none
  | none =>
    simp only
    unfold clearSetting
    split
    · rfl
    · split
      · rfl
      · rename_i hs
        exact set_decl hs rfl

theorem save_known {st : State} {r : List Nat × State} (h : save st = some r) : r.2.known = st.known := by
  unfold save at h
  obtain ⟨t, -, rfl⟩ := Option.map_eq_some_iff.1 h
  rfl

theorem sandboxedSet_known {env : Env} {custom : Custom} {st : State} {file file2 : Option (List Nat)} {b : Bool} {n : List Nat} {v : Option (List Nat)}
    {st2 : State} (h : sandboxedSet env custom st file n v = some (b, file2, st2)) :
    ∃ new, SameDecl new st.known ∧ st2 = ⟨new.map (rollback env st.known), st.loaded⟩ := by
  unfold sandboxedSet at h
  simp only at h
  obtain ⟨r, hr, h⟩ := Option.bind_eq_some_iff.1 h
  have hd : SameDecl r.1.known st.known := by
    refine Eq.trans ?_ (load_decl env custom st file)
    cases v with
    | some v => cases hr; exact setSetting_decl env _ n v none
    | none => exact setNull_decl hr
  split at h
  · obtain ⟨w, hw, he⟩ := Option.map_eq_some_iff.1 h
    simp only [Prod.mk.injEq] at he
    refine ⟨w.2.known, ?_, he.2.2.symm⟩
    rw [save_known hw]
    exact hd
  · simp only [Option.some.injEq, Prod.mk.injEq] at h
    exact ⟨r.1.known, hd, h.2.2.symm⟩

theorem sandboxedOverlay_known {env : Env} {custom : Custom} {st : State} {file file2 : Option (List Nat)} {overlay : List (List Nat × Option (List Nat))}
    {st2 : State} (h : sandboxedOverlay env custom st file overlay = some (file2, st2)) :
    ∃ new, SameDecl new st.known ∧ st2 = ⟨new.map (rollback env st.known), st.loaded⟩ := by
  unfold sandboxedOverlay at h
  simp only at h
  obtain ⟨w, hw, he⟩ := Option.map_eq_some_iff.1 h
  simp only [Prod.mk.injEq] at he
  refine ⟨w.2.known, ?_, he.2.symm⟩
  rw [save_known hw]
  have fold : ∀ (l : List (List Nat × Option (List Nat))) (s0 : State), SameDecl (l.foldl (fun st o => overlayOne env custom st o.1 o.2) s0).known s0.known := by
    intro l
    induction l with
    | nil => intro s0; rfl
    | cons o l ih => intro s0; exact (ih _).trans (overlayOne_decl env custom s0 o.1 o.2)
  exact (fold overlay _).trans (load_decl env custom st file)

theorem mem_decl {a b : List Setting} (h : SameDecl a b) {s : Setting} (hs : s ∈ a) : ∃ t ∈ b, t.name = s.name ∧ t.ty = s.ty := by
  have hmem : (s.name, s.desc, s.ty) ∈ a.map fun s => (s.name, s.desc, s.ty) := List.mem_map_of_mem hs
  rw [h] at hmem
  obtain ⟨t, ht, hte⟩ := List.mem_map.1 hmem
  simp only [Prod.mk.injEq] at hte
  exact ⟨t, ht, hte.1, hte.2.2⟩

theorem changeOk_decl {env : Env} {a b : List Setting} (h : SameDecl a b) {o : List Nat × Option (List Nat)} (ho : ChangeOk env b o) : ChangeOk env a o := by
  refine ⟨ho.name, ho.value, ho.auto, ?_⟩
  intro v hv s hs hn d hd code hcode
  obtain ⟨t, ht, h1, h2⟩ := mem_decl h hs
  refine ho.colour v hv t ht ?_ d (by rw [h2]; exact hd) code hcode
  unfold Names at *
  rw [h1]
  exact hn

theorem refused_decl {env : Env} {a b : List Setting} (h : SameDecl a b) {n v : List Nat} :
    (∃ s ∈ a, Names s n ∧ parse env s.ty v = none) ↔ ∃ s ∈ b, Names s n ∧ parse env s.ty v = none := by
  have key : ∀ {a b : List Setting}, SameDecl a b → (∃ s ∈ a, Names s n ∧ parse env s.ty v = none) → ∃ s ∈ b, Names s n ∧ parse env s.ty v = none := by
    rintro a b h ⟨s, hs, hn, hp⟩
    obtain ⟨t, ht, h1, h2⟩ := mem_decl h hs
    refine ⟨t, ht, ?_, by rw [h2]; exact hp⟩
    unfold Names at *
    rw [h1]
    exact hn
  exact ⟨key h, key h.symm⟩

theorem setSetting_false {env : Env} {st : State} (hk : KnownOk env.lower st.known) (n v : List Nat) (c : Option (List Nat)) :
    (setSetting env st n v c).2 = false ↔ ∃ s ∈ st.known, Names s n ∧ parse env s.ty v = none := by
  have hshort : ∀ s ∈ st.known, s.name.length ≤ 32 := fun s hs => (hk.decl s hs).short
  have toIdx : ∀ s ∈ st.known, Names s n → ∃ i, st.known[i]? = some s ∧ findIdx st.known n = some i := by
    intro s hs hn
    obtain ⟨i, hi, rfl⟩ := List.getElem_of_mem hs
    have := List.getElem?_eq_getElem hi
    exact ⟨i, this, (names_iff hshort hk.differ this n).2 hn⟩
  unfold setSetting
  cases hi : findIdx st.known n with
  | none =>
    simp only [Bool.true_eq_false, false_iff, not_exists, not_and]
    intro s hs hn
    obtain ⟨i, -, h⟩ := toIdx s hs hn
    rw [hi] at h
    cases h
  | some i =>
    simp only
    cases hs : st.known[i]? with
    | none =>
      exfalso
      unfold findIdx at hi
      have lt : ∀ m : List Nat, st.known.findIdx? (fun s => same s.name m) = some i → False := by
        intro m hm
        have := (List.findIdx?_eq_some_iff_getElem.1 hm).1
        rw [List.getElem?_eq_none_iff] at hs
        omega
      split at hi
      · cases hi; exact lt _ (by assumption)
      · split at hi
        · exact lt _ hi
        · cases hi
    | some s =>
      have hn := (names_iff hshort hk.differ hs n).1 hi
      simp only
      constructor
      · intro h
        refine ⟨s, List.mem_of_getElem? hs, hn, ?_⟩
        unfold Setting.set at h
        split at h
        · assumption
        · cases h
      · rintro ⟨t, ht, htn, hp⟩
        obtain ⟨j, hj, hfj⟩ := toIdx t ht htn
        rw [hi] at hfj
        cases hfj
        rw [hs] at hj
        cases hj
        unfold Setting.set
        rw [hp]

end Clink.Settings
