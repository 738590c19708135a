import Verif.Proof.SettingsParse

/-! What entries of a file do. -/

namespace Clink.Settings

open Spec
open Color (bs)

theorem means_exists (n v : List Nat) : Means n v (autoupdate n v) := by
  have key : ∃ w, Means n v w := by
    by_cases h : Color.Spec.Like n (bs "clink.autoupdate") ∧ OldWord v
    · obtain ⟨h1, pre, w, post, hv, hpre, hpost, x, hx, hw⟩ := h
      by_cases hx' : x ∈ [bs "false", bs "off", bs "no"]
      · exact ⟨_, .no h1 hv hpre hpost hx' hw⟩
      · refine ⟨_, .yes h1 hv hpre hpost ?_ hw⟩
        simp only [List.mem_cons, List.not_mem_nil, or_false, not_or] at hx hx' ⊢
        rcases hx with h | h | h | h | h | h
        · exact absurd h hx'.1
        · exact absurd h hx'.2.1
        · exact absurd h hx'.2.2
        · exact .inl h
        · exact .inr (.inl h)
        · exact .inr (.inr h)
    · exact ⟨v, .other h⟩
  obtain ⟨w, hw⟩ := key
  rw [means_iff hw]
  exact hw

/-! ### Known settings -/

theorem names_iff {known : List Setting} (hd : ∀ s ∈ known, s.name.length ≤ 32) (hp : known.Pairwise fun s t => ¬ SameName s.name t.name) {i : Nat} {s : Setting}
    (hs : known[i]? = some s) (n : List Nat) : findIdx known n = some i ↔ Names s n := by
  have uniq : ∀ {m : List Nat} {j : Nat} {t : Setting}, known[j]? = some t → SameName t.name m → SameName s.name m → j = i := by
    intro m j t ht h1 h2
    have hne : ¬ SameName t.name s.name → ¬ SameName s.name t.name → j = i → True := fun _ _ _ => trivial
    have hts : SameName t.name s.name ∧ SameName s.name t.name := by
      rw [sameName_iff] at *
      rw [sameName_iff]
      unfold same at *
      simp only [beq_iff_eq] at *
      exact ⟨h1.trans h2.symm, h2.trans h1.symm⟩
    obtain ⟨hj, hje⟩ := List.getElem?_eq_some_iff.1 ht
    obtain ⟨hi, hie⟩ := List.getElem?_eq_some_iff.1 hs
    rcases Nat.lt_trichotomy j i with h | h | h
    · have := List.pairwise_iff_getElem.1 hp j i hj hi h
      rw [hje, hie] at this
      exact absurd hts.1 this
    · exact h
    · have := List.pairwise_iff_getElem.1 hp i j hi hj h
      rw [hje, hie] at this
      exact absurd hts.2 this
  have find : ∀ m : List Nat, known.findIdx? (fun s => same s.name m) = some i ↔ SameName s.name m := by
    intro m
    constructor
    · intro h
      obtain ⟨hi, h1, -⟩ := List.findIdx?_eq_some_iff_getElem.1 h
      obtain ⟨hi', hie⟩ := List.getElem?_eq_some_iff.1 hs
      rw [hie] at h1
      exact sameName_iff.2 h1
    · intro h
      cases hf : known.findIdx? (fun s => same s.name m) with
      | none =>
        have := List.findIdx?_eq_none_iff.1 hf s (List.mem_of_getElem? hs)
        rw [sameName_iff.1 h] at this
        cases this
      | some j =>
        obtain ⟨hj, h1, -⟩ := List.findIdx?_eq_some_iff_getElem.1 hf
        rw [uniq (List.getElem?_eq_getElem hj) (sameName_iff.2 h1) h]
  have long : 32 < n.length → known.findIdx? (fun s => same s.name n) = none := by
    intro hl
    rw [List.findIdx?_eq_none_iff]
    intro t ht
    have := hd t ht
    refine Bool.eq_false_iff.2 fun h => ?_
    have := (sameName_iff.2 h).1
    omega
  unfold findIdx Names
  by_cases hl : 32 < n.length
  · rw [long hl]
    simp only
    rw [if_pos hl, find]
    constructor
    · exact fun h => .inr ⟨hl, h⟩
    · rintro (h | h)
      · have := hd s (List.mem_of_getElem? hs)
        have := h.1
        omega
      · exact h.2
  · rw [← find n]
    cases hf : known.findIdx? (fun s => same s.name n) with
    | some j => simp only; constructor; (exact fun h => .inl h); rintro (h | h); (exact h); exact absurd h.1 hl
    | none =>
      simp only
      rw [if_neg hl]
      constructor
      · intro h; cases h
      · rintro (h | h)
        · cases h
        · exact absurd h.1 hl

theorem addEntry_decl (env : Env) (st : State) (e : Entry) : SameDecl (addEntry env st e).known st.known := by
  unfold addEntry setSetting
  split
  · rfl
  · split
    · rfl
    · rename_i i s hs
      unfold SameDecl
      apply List.ext_getElem?
      intro j
      simp only
      rw [List.getElem?_map, List.getElem?_map, List.getElem?_set]
      split
      · rename_i hij
        subst hij
        split
        · rw [hs, Option.map_some, Option.map_some]
          congr 1
          unfold Setting.set
          split <;> rfl
        · rw [List.getElem?_eq_none (by omega)]
      · rfl

theorem sameDecl_short {a b : List Setting} (h : SameDecl a b) (hd : ∀ s ∈ b, s.name.length ≤ 32) (hp : b.Pairwise fun s t => ¬ SameName s.name t.name) :
    (∀ s ∈ a, s.name.length ≤ 32) ∧ a.Pairwise fun s t => ¬ SameName s.name t.name := by
  have hn : a.map (·.name) = b.map (·.name) := by
    have := congrArg (List.map Prod.fst) h
    simpa [List.map_map, Function.comp_def] using this
  constructor
  · intro s hs
    have : s.name ∈ b.map (·.name) := by rw [← hn]; exact List.mem_map_of_mem hs
    obtain ⟨t, ht, he⟩ := List.mem_map.1 this
    rw [← he]
    exact hd t ht
  · rw [← List.pairwise_map (f := fun s : Setting => s.name) (R := fun a b => ¬ SameName a b)] at hp ⊢
    rw [hn]
    exact hp

open Classical in
theorem addEntry_known {env : Env} {st : State} (hd : ∀ s ∈ st.known, s.name.length ≤ 32) (hp : st.known.Pairwise fun s t => ¬ SameName s.name t.name) {i : Nat}
    {s : Setting} (hs : st.known[i]? = some s) (e : Entry) :
    (addEntry env st e).known[i]? = some (if Names s e.name then (s.set env e.value).1 else s) := by
  unfold addEntry setSetting
  cases hi : findIdx st.known e.name with
  | none =>
    rw [if_neg]
    · exact hs
    · rw [← names_iff hd hp hs, hi]
      simp
  | some j =>
    simp only
    cases hj : st.known[j]? with
    | none =>
      rw [if_neg]
      · exact hs
      · rw [← names_iff hd hp hs, hi]
        rintro ⟨⟩
        rw [hj] at hs
        cases hs
    | some t =>
      simp only
      by_cases hij : j = i
      · subst hij
        rw [hs] at hj
        cases hj
        rw [if_pos ((names_iff hd hp hs _).1 hi), List.getElem?_set_self (List.getElem?_eq_some_iff.1 hs).1]
      · rw [if_neg, List.getElem?_set_ne hij]
        · exact hs
        · rw [← names_iff hd hp hs, hi]
          simpa using hij

open Classical in
theorem fold_known {env : Env} {known : List Setting} (hd : ∀ s ∈ known, s.name.length ≤ 32) (hp : known.Pairwise fun s t => ¬ SameName s.name t.name)
    (es : List Entry) {st : State} (hst : SameDecl st.known known) {i : Nat} {s : Setting} (hs : st.known[i]? = some s) :
    (es.foldl (addEntry env) st).known[i]? = some (es.foldl (fun s e => if Names s e.name then (s.set env e.value).1 else s) s) := by
  induction es generalizing st s with
  | nil => exact hs
  | cons e es ih =>
    obtain ⟨h1, h2⟩ := sameDecl_short hst hd hp
    exact ih ((addEntry_decl env st e).trans hst) (addEntry_known h1 h2 hs e)

/-! ### Settings that are not known -/

theorem mem_emplace {e l : Loaded} {ls : List Loaded} (h : ls.Pairwise fun a b => Before a.name b.name) :
    l ∈ emplace e ls ↔ l ∈ ls ∨ (l = e ∧ ∀ f ∈ ls, f.name ≠ e.name) := by
  induction ls with
  | nil => simp [emplace]
  | cons g ls ih =>
    obtain ⟨h1, h2⟩ := List.pairwise_cons.1 h
    rw [emplace]
    by_cases hb : before e.name g.name = true
    · rw [if_pos hb]
      rw [before_iff] at hb
      constructor
      · intro hm
        rcases List.mem_cons.1 hm with rfl | hm
        · refine .inr ⟨rfl, fun f hf he => ?_⟩
          rcases List.mem_cons.1 hf with rfl | hf
          · rw [he] at hb; exact before_irrefl _ hb
          · have := before_trans hb (h1 f hf)
            rw [he] at this
            exact before_irrefl _ this
        · exact .inl hm
      · rintro (hm | ⟨rfl, -⟩)
        · exact List.mem_cons_of_mem _ hm
        · simp
    · rw [if_neg hb]
      by_cases he : e.name = g.name
      · rw [if_pos he]
        constructor
        · exact .inl
        · rintro (hm | ⟨rfl, hn⟩)
          · exact hm
          · exact absurd he.symm (hn g (by simp))
      · rw [if_neg he, List.mem_cons, ih h2, List.mem_cons]
        constructor
        · rintro (rfl | hm | ⟨rfl, hn⟩)
          · exact .inl (.inl rfl)
          · exact .inl (.inr hm)
          · refine .inr ⟨rfl, fun f hf => ?_⟩
            rcases List.mem_cons.1 hf with rfl | hf
            · exact Ne.symm he
            · exact hn f hf
        · rintro ((rfl | hm) | ⟨rfl, hn⟩)
          · exact .inl rfl
          · exact .inr (.inl hm)
          · exact .inr (.inr ⟨rfl, fun f hf => hn f (List.mem_cons_of_mem _ hf)⟩)

theorem unknown_decl {a b : List Setting} (h : SameDecl a b) (n : List Nat) : Unknown a n ↔ Unknown b n := by
  have key : ∀ {a b : List Setting}, SameDecl a b → Unknown b n → Unknown a n := by
    intro a b h hu s hs
    have : (s.name, s.desc, s.ty) ∈ a.map fun s => (s.name, s.desc, s.ty) := List.mem_map_of_mem hs
    rw [h] at this
    obtain ⟨t, ht, hte⟩ := List.mem_map.1 this
    rw [Prod.mk.injEq] at hte
    rw [← hte.1]
    exact hu t ht
  exact ⟨key h.symm, key h⟩

theorem findIdx_none_iff (known : List Setting) (n : List Nat) : findIdx known n = none ↔ Unknown known n := ⟨findIdx_none, findIdx_unknown⟩

theorem addEntry_loaded {env : Env} {st : State} (hs : st.loaded.Pairwise fun a b => Before a.name b.name) (e : Entry) (l : Loaded) :
    l ∈ (addEntry env st e).loaded ↔
      l ∈ st.loaded ∨ (l = ⟨e.name, e.comment, e.value, false⟩ ∧ Unknown st.known e.name ∧ ∀ f ∈ st.loaded, f.name ≠ e.name) := by
  unfold addEntry setSetting
  cases hi : findIdx st.known e.name with
  | none =>
    simp only
    rw [mem_emplace hs, (findIdx_none_iff _ _).1 hi |> fun h => (show (Unknown st.known e.name) = True from eq_true h)]
    simp
  | some j =>
    have hn : ¬ Unknown st.known e.name := by rw [← findIdx_none_iff, hi]; simp
    simp only
    cases hj : st.known[j]? with
    | none => simp [hn]
    | some t => simp [hn]

theorem addEntry_sorted {env : Env} {st : State} (hs : st.loaded.Pairwise fun a b => Before a.name b.name) (e : Entry) :
    (addEntry env st e).loaded.Pairwise fun a b => Before a.name b.name := by
  unfold addEntry setSetting
  split
  · exact emplace_sorted hs
  · split <;> exact hs

theorem fold_loaded {env : Env} {known : List Setting} (es : List Entry) {st : State} (hd : SameDecl st.known known)
    (hs : st.loaded.Pairwise fun a b => Before a.name b.name) (l : Loaded) :
    l ∈ (es.foldl (addEntry env) st).loaded ↔ l ∈ st.loaded ∨
      ((∀ f ∈ st.loaded, f.name ≠ l.name) ∧ Unknown known l.name ∧ l.saved = false ∧
        ∃ pre post, es = pre ++ ⟨l.name, l.value, l.comment⟩ :: post ∧ ∀ x ∈ pre, x.name ≠ l.name) := by
  induction es generalizing st with
  | nil => simp
  | cons e es ih =>
    rw [List.foldl_cons, ih ((addEntry_decl env st e).trans hd) (addEntry_sorted hs e), addEntry_loaded hs]
    rw [unknown_decl hd]
    constructor
    · rintro ((h | ⟨rfl, h2, h3⟩) | ⟨h1, h2, h3, pre, post, rfl, h5⟩)
      · exact .inl h
      · exact .inr ⟨h3, h2, rfl, [], es, rfl, by simp⟩
      · refine .inr ⟨fun f hf => h1 f ((addEntry_loaded hs e f).2 (.inl hf)), h2, h3, e :: pre, post, rfl, ?_⟩
        intro x hx
        rcases List.mem_cons.1 hx with rfl | hx
        · intro he
          by_cases hex : ∃ f ∈ st.loaded, f.name = x.name
          · obtain ⟨f, hf, hfe⟩ := hex
            exact h1 f ((addEntry_loaded hs x f).2 (.inl hf)) (hfe.trans he)
          · refine h1 ⟨x.name, x.comment, x.value, false⟩ ((addEntry_loaded hs x _).2 (.inr ⟨rfl, ?_, fun f hf h => hex ⟨f, hf, h⟩⟩)) he
            rw [unknown_decl hd, he]
            exact h2
        · exact h5 x hx
    · rintro (h | ⟨h1, h2, h3, pre, post, he, h5⟩)
      · exact .inl (.inl h)
      · cases pre with
        | nil =>
          cases he
          refine .inl (.inr ⟨by cases l; cases h3; rfl, h2, h1⟩)
        | cons p pre =>
          cases he
          refine .inr ⟨fun f hf => ?_, h2, h3, pre, post, rfl, fun x hx => h5 x (List.mem_cons_of_mem _ hx)⟩
          rcases (addEntry_loaded hs _ f).1 hf with hf | ⟨rfl, -, -⟩
          · exact h1 f hf
          · exact h5 _ (by simp)

end Clink.Settings
