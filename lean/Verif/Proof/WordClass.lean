import Verif.Spec.WordClass

/-!
Proofs about the colours of the input line.
-/

namespace Clink.WordClass

open Spec

theorem same_iff (s t : List Nat) : Settings.same s t = true ↔ Caseless s t := by
  simp [Settings.same, Caseless]

/-- What one position becomes. -/
def paint (p start n face : Nat) (overwrite : Bool) (f : Nat) : Nat :=
  if start ≤ p ∧ p < start + n ∧ (overwrite = true ∨ f = 32) then face else f

theorem applyLoop_spec (len face : Nat) (o : Bool) (n start : Nat) (fs : List Nat) (h : fs.length = len) :
    ∃ gs, applyLoop len face o start n fs = some gs ∧ gs.length = len ∧
      ∀ p, gs[p]? = (fs[p]?).map (paint p start n face o) := by
  induction n generalizing start fs with
  | zero =>
    refine ⟨fs, by simp [applyLoop], h, fun p => ?_⟩
    have : ∀ f, paint p start 0 face o f = f := fun f => by unfold paint; rw [if_neg (by omega)]
    cases fs[p]? <;> simp [this]
  | succ n ih =>
    rw [applyLoop]
    by_cases hs : start < len
    · rw [if_pos hs, List.getElem?_eq_getElem (by omega)]
      simp only
      obtain ⟨gs, h1, h2, h3⟩ := ih (start + 1) (if o || fs[start] == 32 then fs.set start face else fs) (by split <;> simp [h])
      refine ⟨gs, h1, h2, fun p => ?_⟩
      rw [h3]
      by_cases hp : p = start
      · subst hp
        have hn : ∀ f, paint p (p + 1) n face o f = f := fun f => by unfold paint; rw [if_neg (by omega)]
        rw [List.getElem?_eq_getElem (l := fs) (by omega)]
        have hif : (if o || fs[p] == 32 then fs.set p face else fs)[p]? = some (if o = true ∨ fs[p] = 32 then face else fs[p]) := by
          by_cases hc : o = true ∨ fs[p] = 32
          · rw [if_pos (by simpa using hc), if_pos hc, List.getElem?_set_self (by omega)]
          · rw [if_neg (by simpa using hc), if_neg hc, List.getElem?_eq_getElem (by omega)]
        rw [hif, Option.map_some, Option.map_some, hn, Option.some.injEq]
        unfold paint
        by_cases hc : o = true ∨ fs[p] = 32
        · rw [if_pos hc, if_pos ⟨by omega, by omega, hc⟩]
        · rw [if_neg hc, if_neg (fun hh => hc hh.2.2)]
      · have hsame : (if o || fs[start] == 32 then fs.set start face else fs)[p]? = fs[p]? := by
          split
          · rw [List.getElem?_set_ne (Ne.symm hp)]
          · rfl
        rw [hsame]
        congr 1
        funext f
        unfold paint
        congr 1
        apply propext
        constructor <;> rintro ⟨a, b, c⟩ <;> exact ⟨by omega, by omega, c⟩
    · rw [if_neg hs]
      refine ⟨fs, rfl, h, fun p => ?_⟩
      by_cases hp : p < len
      · have : ∀ f, paint p start (n + 1) face o f = f := fun f => by unfold paint; rw [if_neg (by omega)]
        cases fs[p]? <;> simp [this]
      · rw [List.getElem?_eq_none (by omega)]; rfl

/-- What holds of the object between calls, if no colour is empty. -/
structure Inv (st : State) : Prop where
  faces : st.faces.length = st.len
  words : st.words.length = st.len
  stale : st.stale = false
  nonempty : [] ∉ st.defs
  map : st.map = st.defs.mapIdx fun i d => (d, 128 + i)
  distinct : st.defs.Pairwise fun a b => ¬ Caseless a b
  few : st.defs.length ≤ 100

theorem inv_empty : Inv {} := ⟨rfl, rfl, rfl, by simp, rfl, .nil, by simp⟩

theorem addDef_inv (grow : Nat → Nat) {st : State} (h : Inv st) {s : List Nat} (hs : s ≠ []) (hd : ∀ d ∈ st.defs, ¬ Caseless d s)
    (hf : st.defs.length < 100) :
    ∃ st', addDef grow s st = some st' ∧ Inv st' ∧ st'.defs = st.defs ++ [s] ∧ st'.faces = st.faces ∧ st'.words = st.words ∧
      st'.len = st.len ∧ st'.argmatchers = st.argmatchers ∧ st'.infos = st.infos := by
  have hst : (emplaceBack grow s st).stale = false := by
    unfold emplaceBack
    split
    · exact h.stale
    · have : st.defs.any (· == []) = false := by
        rw [List.any_eq_false]
        intro d hd hc
        exact h.nonempty (by rw [← eq_of_beq hc]; exact hd)
      simp only [h.stale, this, Bool.or_self]
  have hm : (emplaceBack grow s st).map = st.map := by unfold emplaceBack; split <;> rfl
  have hdf : (emplaceBack grow s st).defs = st.defs ++ [s] := by unfold emplaceBack; split <;> rfl
  have hno : ¬ ((emplaceBack grow s st).map.any fun e => Settings.same e.1 s) = true := by
    rw [hm, h.map, List.any_eq_true]
    rintro ⟨e, he, hc⟩
    rw [List.mem_mapIdx] at he
    obtain ⟨i, hi, rfl⟩ := he
    exact hd _ (List.getElem_mem hi) ((same_iff _ _).1 hc)
  unfold addDef emplaceMap
  rw [hst, if_neg (by simp), if_neg hno]
  refine ⟨_, rfl, ⟨?_, ?_, rfl, ?_, ?_, ?_, ?_⟩, hdf, ?_, ?_, ?_, ?_, ?_⟩
  · show (emplaceBack grow s st).faces.length = (emplaceBack grow s st).len
    unfold emplaceBack; split <;> exact h.faces
  · show (emplaceBack grow s st).words.length = (emplaceBack grow s st).len
    unfold emplaceBack; split <;> exact h.words
  · show [] ∉ (emplaceBack grow s st).defs
    rw [hdf]; simp only [List.mem_append, List.mem_singleton, not_or]
    exact ⟨h.nonempty, Ne.symm hs⟩
  · show (emplaceBack grow s st).map ++ _ = (emplaceBack grow s st).defs.mapIdx _
    rw [hm, hdf, h.map, List.mapIdx_append]
    simp [Nat.add_comm]
  · show (emplaceBack grow s st).defs.Pairwise _
    rw [hdf, List.pairwise_append]
    refine ⟨h.distinct, by simp, fun a ha b hb => ?_⟩
    simp only [List.mem_singleton] at hb
    subst hb
    exact hd a ha
  · show (emplaceBack grow s st).defs.length ≤ 100
    rw [hdf]; simp; omega
  all_goals
    simp only
    unfold emplaceBack
    split <;> rfl

theorem addDefs_inv (grow : Nat → Nat) (ss : List (List Nat)) {st : State} (h : Inv st) (hs : [] ∉ ss)
    (hp : (st.defs ++ ss).Pairwise fun a b => ¬ Caseless a b) (hf : (st.defs ++ ss).length ≤ 100) :
    ∃ st', addDefs grow ss st = some st' ∧ Inv st' ∧ st'.defs = st.defs ++ ss ∧ st'.faces = st.faces ∧ st'.words = st.words ∧
      st'.len = st.len ∧ st'.argmatchers = st.argmatchers ∧ st'.infos = st.infos := by
  induction ss generalizing st with
  | nil => exact ⟨st, rfl, h, by simp, rfl, rfl, rfl, rfl, rfl⟩
  | cons s ss ih =>
    simp only [List.mem_cons, not_or] at hs
    obtain ⟨st1, h1, h2, h3, h4, h5, h6, h7, h8⟩ := addDef_inv grow h (Ne.symm hs.1) (fun d hd => by
      rw [List.pairwise_append] at hp
      exact hp.2.2 d hd s List.mem_cons_self) (by simp at hf; omega)
    obtain ⟨st2, g1, g2, g3, g4, g5, g6, g7, g8⟩ := ih h2 hs.2 (by rw [h3]; simpa using hp) (by rw [h3]; simpa using hf)
    refine ⟨st2, ?_, g2, by rw [g3, h3]; simp, g4.trans h4, g5.trans h5, g6.trans h6, g7.trans h7, g8.trans h8⟩
    rw [addDefs, h1]
    exact g1

theorem init_inv (grow : Nat → Nat) {st old : State} (h : Inv old) (n : Nat) (a : Bool) :
    ∃ st', init grow n old.defs a st = some st' ∧ Inv st' ∧ st'.defs = old.defs ∧ st'.faces = List.replicate n 32 ∧
      st'.words = List.replicate n 32 ∧ st'.len = n ∧ st'.argmatchers = a ∧ st'.infos = none := by
  have h0 : Inv { clear st with argmatchers := a } := ⟨rfl, rfl, rfl, by simp [clear], rfl, .nil, by simp [clear]⟩
  obtain ⟨s1, h1, h2, h3, h4, h5, h6, h7, h8⟩ := addDefs_inv grow old.defs h0 h.nonempty (by simpa [clear] using h.distinct)
    (by simpa [clear] using h.few)
  unfold init
  rw [h1]
  refine ⟨_, rfl, ⟨by simp, by simp, h2.stale, h2.nonempty, h2.map, h2.distinct, h2.few⟩, ?_, rfl, rfl, rfl, h7, h8⟩
  simpa [clear] using h3

theorem find_map {defs : List (List Nat)} {s : List Nat} :
    (((defs.mapIdx fun i d => (d, 128 + i)).find? fun e => Settings.same e.1 s) = none ∧ ∀ d ∈ defs, ¬ Caseless d s) ∨
    ∃ i d, defs[i]? = some d ∧ Caseless d s ∧
      ((defs.mapIdx fun i d => (d, 128 + i)).find? fun e => Settings.same e.1 s) = some (d, 128 + i) := by
  cases hf : (defs.mapIdx fun i d => (d, 128 + i)).find? fun e => Settings.same e.1 s with
  | none =>
    left
    refine ⟨rfl, fun d hd hc => ?_⟩
    rw [List.find?_eq_none] at hf
    obtain ⟨i, hi, rfl⟩ := List.getElem_of_mem hd
    exact hf (defs[i], 128 + i) (List.mem_mapIdx.2 ⟨i, hi, rfl⟩) ((same_iff _ _).2 hc)
  | some e =>
    right
    have h1 := List.mem_of_find?_eq_some hf
    have h2 := List.find?_some hf
    rw [List.mem_mapIdx] at h1
    obtain ⟨i, hi, rfl⟩ := h1
    exact ⟨i, defs[i], List.getElem?_eq_getElem hi, (same_iff _ _).1 h2, rfl⟩

theorem ensure_inv (grow : Nat → Nat) {st : State} (h : Inv st) {s : List Nat} (hs : s ≠ []) :
    (∃ i d, st.defs[i]? = some d ∧ Caseless d s ∧ ensureFace grow s st = some (128 + i, st)) ∨
    (st.defs.length = 100 ∧ (∀ d ∈ st.defs, ¬ Caseless d s) ∧ ensureFace grow s st = some (0, st)) ∨
    (∃ st', st.defs.length < 100 ∧ (∀ d ∈ st.defs, ¬ Caseless d s) ∧ ensureFace grow s st = some (128 + st.defs.length, st') ∧ Inv st' ∧
      st'.defs = st.defs ++ [s] ∧ st'.faces = st.faces ∧ st'.words = st.words ∧ st'.len = st.len ∧
      st'.argmatchers = st.argmatchers ∧ st'.infos = st.infos) := by
  unfold ensureFace
  rw [h.stale, if_neg (by simp), h.map]
  rcases find_map (defs := st.defs) (s := s) with ⟨h1, h2⟩ | ⟨i, d, h1, h2, h3⟩
  · rw [h1]
    simp only
    by_cases hf : st.defs.length ≥ 100
    · right; left
      exact ⟨by have := h.few; omega, h2, by rw [if_pos hf]⟩
    · right; right
      obtain ⟨st', g1, g2, g3⟩ := addDef_inv grow h hs h2 (by omega)
      exact ⟨st', by omega, h2, by rw [if_neg hf, g1]; rfl, g2, g3⟩
  · rw [h3]
    exact .inl ⟨i, d, h1, h2, rfl⟩

theorem apply_inv {st : State} (h : Inv st) (w : Bool) (start n face : Nat) (o : Bool) :
    ∃ st', applyFace w start n face o st = some st' ∧ Inv st' ∧ st'.defs = st.defs ∧ st'.len = st.len ∧
      st'.argmatchers = st.argmatchers ∧ st'.infos = st.infos ∧
      (∀ p, st'.faces[p]? = if w then st.faces[p]? else (st.faces[p]?).map (paint p start n face o)) ∧
      (∀ p, st'.words[p]? = if w then (st.words[p]?).map (paint p start n face o) else st.words[p]?) := by
  unfold applyFace
  cases w with
  | true =>
    obtain ⟨gs, h1, h2, h3⟩ := applyLoop_spec st.len face o n start st.words h.words
    rw [if_pos rfl, h1]
    exact ⟨_, rfl, ⟨h.faces, h2, h.stale, h.nonempty, h.map, h.distinct, h.few⟩, rfl, rfl, rfl, rfl, fun p => rfl, h3⟩
  | false =>
    obtain ⟨gs, h1, h2, h3⟩ := applyLoop_spec st.len face o n start st.faces h.faces
    rw [if_neg (by simp), h1]
    exact ⟨_, rfl, ⟨h2, h.words, h.stale, h.nonempty, h.map, h.distinct, h.few⟩, rfl, rfl, rfl, rfl, h3, fun p => rfl⟩

theorem finish_inv {st : State} (h : Inv st) : Inv (finish st) :=
  ⟨by simp [finish, h.faces, h.words], h.words, h.stale, h.nonempty, h.map, h.distinct, h.few⟩

theorem classify_inv {st : State} (h : Inv st) (c w wc : Nat) (a o : Bool) : Inv (classifyWord c w wc a o st) :=
  ⟨h.faces, h.words, h.stale, h.nonempty, h.map, h.distinct, h.few⟩

/-- What the colours asked for have to do with the definitions. -/
structure LogOk (log : List (List Nat × Nat)) (st : State) : Prop where
  given : ∀ s c, (s, c) ∈ log → c ≠ 0 → ∃ i d, c = 128 + i ∧ st.defs[i]? = some d ∧ Caseless d s
  first : ∀ i d, st.defs[i]? = some d → log.find? (·.2 == 128 + i) = some (d, 128 + i)
  refused : ∀ s, (s, 0) ∈ log → st.defs.length = 100 ∧ ∀ d ∈ st.defs, ¬ Caseless d s

theorem log_defs {log : List (List Nat × Nat)} {st st' : State} (h : LogOk log st) (hd : st'.defs = st.defs) : LogOk log st' :=
  ⟨by rw [hd]; exact h.given, by rw [hd]; exact h.first, by rw [hd]; exact h.refused⟩

theorem find_lt {log : List (List Nat × Nat)} {st : State} (h : LogOk log st) {i : Nat} (hi : st.defs.length ≤ i) :
    log.find? (·.2 == 128 + i) = none := by
  rw [List.find?_eq_none]
  rintro ⟨s, c⟩ hm hc
  simp only [beq_iff_eq] at hc
  obtain ⟨j, d, h1, h2, -⟩ := h.given s c hm (by omega)
  have : j = i := by omega
  subst this
  rw [List.getElem?_eq_none hi] at h2
  exact absurd h2 (by simp)

theorem step_inv (grow : Nat → Nat) {st : State} (h : Inv st) {log : List (List Nat × Nat)} (hl : LogOk log st) {op : Op}
    (hop : op ≠ .ensure []) : ∃ st' l, step grow op st = some (st', l) ∧ Inv st' ∧ LogOk (log ++ l) st' := by
  cases op with
  | line n a =>
    obtain ⟨st', h1, h2, h3, -⟩ := init_inv grow (st := {}) h n a
    exact ⟨st', [], by simp [step, h1], h2, by rw [List.append_nil]; exact log_defs hl h3⟩
  | apply w start n face o =>
    obtain ⟨st', h1, h2, h3, -⟩ := apply_inv h w start n face o
    exact ⟨st', [], by simp [step, h1], h2, by rw [List.append_nil]; exact log_defs hl h3⟩
  | classify c w wc a o => exact ⟨_, [], rfl, classify_inv h c w wc a o, by rw [List.append_nil]; exact log_defs hl rfl⟩
  | finish => exact ⟨_, [], rfl, finish_inv h, by rw [List.append_nil]; exact log_defs hl rfl⟩
  | ensure s =>
    have hs : s ≠ [] := fun hc => hop (by rw [hc])
    rcases ensure_inv grow h hs with ⟨i, d, h1, h2, h3⟩ | ⟨h1, h2, h3⟩ | ⟨st', h1, h2, h3, h4, h5, -⟩
    · refine ⟨st, [(s, 128 + i)], by simp [step, h3], h, ?_, ?_, ?_⟩
      · intro t c hm hc
        simp only [List.mem_append, List.mem_singleton, Prod.mk.injEq] at hm
        rcases hm with hm | ⟨rfl, rfl⟩
        · exact hl.given t c hm hc
        · exact ⟨i, d, rfl, h1, h2⟩
      · intro j e he
        rw [List.find?_append, hl.first j e he]; rfl
      · intro t hm
        simp only [List.mem_append, List.mem_singleton, Prod.mk.injEq] at hm
        rcases hm with hm | ⟨-, hc⟩
        · exact hl.refused t hm
        · omega
    · refine ⟨st, [(s, 0)], by simp [step, h3], h, ?_, ?_, ?_⟩
      · intro t c hm hc
        simp only [List.mem_append, List.mem_singleton, Prod.mk.injEq] at hm
        rcases hm with hm | ⟨-, hc'⟩
        · exact hl.given t c hm hc
        · exact absurd hc' hc
      · intro j e he
        rw [List.find?_append, hl.first j e he]; rfl
      · intro t hm
        simp only [List.mem_append, List.mem_singleton, Prod.mk.injEq] at hm
        rcases hm with hm | ⟨rfl, -⟩
        · exact hl.refused t hm
        · exact ⟨h1, h2⟩
    · refine ⟨st', [(s, 128 + st.defs.length)], by simp [step, h3], h4, ?_, ?_, ?_⟩
      · intro t c hm hc
        simp only [List.mem_append, List.mem_singleton, Prod.mk.injEq] at hm
        rcases hm with hm | ⟨rfl, rfl⟩
        · obtain ⟨i, d, g1, g2, g3⟩ := hl.given t c hm hc
          refine ⟨i, d, g1, ?_, g3⟩
          rw [h5, List.getElem?_append_left (by
            rcases Nat.lt_or_ge i st.defs.length with hh | hh
            · exact hh
            · rw [List.getElem?_eq_none hh] at g2; exact absurd g2 (by simp)), g2]
        · exact ⟨st.defs.length, t, rfl, by rw [h5]; simp, rfl⟩
      · intro j e he
        rw [h5] at he
        by_cases hj : j < st.defs.length
        · rw [List.getElem?_append_left hj] at he
          rw [List.find?_append, hl.first j e he]; rfl
        · have : j = st.defs.length := by
            rcases Nat.lt_or_ge j (st.defs ++ [s]).length with hh | hh
            · simp at hh; omega
            · rw [List.getElem?_eq_none hh] at he; exact absurd he (by simp)
          subst this
          rw [List.find?_append, find_lt hl (Nat.le_refl _)]
          simp only [List.getElem?_concat_length, Option.some.injEq] at he
          simp [he]
      · intro t hm
        simp only [List.mem_append, List.mem_singleton, Prod.mk.injEq] at hm
        rcases hm with hm | ⟨-, hc⟩
        · have := (hl.refused t hm).1; omega
        · omega

theorem run_inv (grow : Nat → Nat) (ops : List Op) {st : State} (h : Inv st) {log : List (List Nat × Nat)} (hl : LogOk log st)
    (hop : ∀ op ∈ ops, op ≠ .ensure []) : ∃ st' l, run grow ops st = some (st', l) ∧ Inv st' ∧ LogOk (log ++ l) st' := by
  induction ops generalizing st log with
  | nil => exact ⟨st, [], rfl, h, by rwa [List.append_nil]⟩
  | cons op ops ih =>
    simp only [List.mem_cons, forall_eq_or_imp] at hop
    obtain ⟨s1, l1, h1, h2, h3⟩ := step_inv grow h hl hop.1
    obtain ⟨s2, l2, g1, g2, g3⟩ := ih h2 h3 hop.2
    exact ⟨s2, l1 ++ l2, by simp [run, h1, g1], g2, by rwa [← List.append_assoc]⟩

theorem log_empty : LogOk [] {} := ⟨by simp, by simp, by simp⟩

theorem run_start (grow : Nat → Nat) (ops : List Op) (hop : ∀ op ∈ ops, op ≠ .ensure []) :
    ∃ st l, run grow ops {} = some (st, l) ∧ Inv st ∧ LogOk l st := by
  simpa using run_inv grow ops inv_empty log_empty hop

/-- One position painted several times. -/
def paintAll (p : Nat) : List Paint → Nat → Nat
  | [], f => f
  | a :: l, f => paintAll p l (paint p a.start a.length a.face a.overwrite f)

theorem paints_cons (w : Bool) (op : Op) (ops : List Op) : paints w (op :: ops) = paints w [op] ++ paints w ops := by
  cases op with
  | apply v start n face o =>
    simp only [paints]
    split <;> rfl
  | _ => rfl

theorem paintAll_append (p : Nat) (a b : List Paint) (f : Nat) : paintAll p (a ++ b) f = paintAll p b (paintAll p a f) := by
  induction a generalizing f with
  | nil => rfl
  | cons x a ih => simp [paintAll, ih]

theorem step_paint (grow : Nat → Nat) {st st' : State} {l : List (List Nat × Nat)} (h : Inv st) {op : Op} (hd : Drawing op)
    (hop : op ≠ .ensure []) (hs : step grow op st = some (st', l)) :
    st'.len = st.len ∧ st'.argmatchers = st.argmatchers ∧ (∀ p, st'.faces[p]? = (st.faces[p]?).map (paintAll p (paints false [op]))) ∧
      ∀ p, st'.words[p]? = (st.words[p]?).map (paintAll p (paints true [op])) := by
  have hid : ∀ (o : Option Nat) p, o = o.map (paintAll p []) := fun o p => by cases o <;> rfl
  cases op with
  | line n a => exact absurd hd (by simp [Drawing])
  | finish => exact absurd hd (by simp [Drawing])
  | classify c w wc a o =>
    simp only [step, Option.some.injEq, Prod.mk.injEq] at hs
    obtain ⟨rfl, -⟩ := hs
    exact ⟨rfl, rfl, fun p => hid _ p, fun p => hid _ p⟩
  | apply w start n face o =>
    obtain ⟨s1, h1, h2, h3, h4, h5, h6, h7, h8⟩ := apply_inv h w start n face o
    simp only [step, h1, Option.map_some, Option.some.injEq, Prod.mk.injEq] at hs
    obtain ⟨rfl, -⟩ := hs
    refine ⟨h4, h5, fun p => ?_, fun p => ?_⟩
    · rw [h7]
      cases w with
      | true => exact hid _ p
      | false => rfl
    · rw [h8]
      cases w with
      | true => rfl
      | false => exact hid _ p
  | ensure s =>
    have hs0 : s ≠ [] := fun hc => hop (by rw [hc])
    rcases ensure_inv grow h hs0 with ⟨i, d, h1, h2, h3⟩ | ⟨h1, h2, h3⟩ | ⟨s1, h1, h2, h3, h4, h5, h6, h7, h8, h9, h10⟩
    · simp only [step, h3, Option.map_some, Option.some.injEq, Prod.mk.injEq] at hs
      obtain ⟨rfl, -⟩ := hs
      exact ⟨rfl, rfl, fun p => hid _ p, fun p => hid _ p⟩
    · simp only [step, h3, Option.map_some, Option.some.injEq, Prod.mk.injEq] at hs
      obtain ⟨rfl, -⟩ := hs
      exact ⟨rfl, rfl, fun p => hid _ p, fun p => hid _ p⟩
    · simp only [step, h3, Option.map_some, Option.some.injEq, Prod.mk.injEq] at hs
      obtain ⟨rfl, -⟩ := hs
      exact ⟨h8, h9, fun p => by rw [h6]; exact hid _ p, fun p => by rw [h7]; exact hid _ p⟩

theorem run_paint (grow : Nat → Nat) (ops : List Op) {st : State} (h : Inv st) {log : List (List Nat × Nat)} (hl : LogOk log st)
    (hd : ∀ op ∈ ops, Drawing op) (hop : ∀ op ∈ ops, op ≠ .ensure []) :
    ∃ st' l, run grow ops st = some (st', l) ∧ Inv st' ∧ LogOk (log ++ l) st' ∧ st'.len = st.len ∧
      (∀ p, st'.faces[p]? = (st.faces[p]?).map (paintAll p (paints false ops))) ∧
      ∀ p, st'.words[p]? = (st.words[p]?).map (paintAll p (paints true ops)) := by
  induction ops generalizing st log with
  | nil =>
    refine ⟨st, [], rfl, h, by rwa [List.append_nil], rfl, fun p => ?_, fun p => ?_⟩
    · cases st.faces[p]? <;> rfl
    · cases st.words[p]? <;> rfl
  | cons op ops ih =>
    simp only [List.mem_cons, forall_eq_or_imp] at hop hd
    obtain ⟨s1, l1, h1, h2, h3⟩ := step_inv grow h hl hop.1
    obtain ⟨e1, -, e2, e3⟩ := step_paint grow h hd.1 hop.1 h1
    obtain ⟨s2, l2, g1, g2, g3, g4, g5, g6⟩ := ih h2 h3 hd.2 hop.2
    refine ⟨s2, l1 ++ l2, by simp [run, h1, g1], g2, by rwa [← List.append_assoc], g4.trans e1, fun p => ?_, fun p => ?_⟩
    · rw [g5, e2, paints_cons false op ops, Option.map_map]
      congr 1
      funext f
      simp [paintAll_append]
    · rw [g6, e3, paints_cons true op ops, Option.map_map]
      congr 1
      funext f
      simp [paintAll_append]

theorem paint_not {p : Nat} {a : Paint} (h : ¬ a.Covers p) (f : Nat) : paint p a.start a.length a.face a.overwrite f = f := by
  unfold paint; unfold Paint.Covers at h
  rw [if_neg (fun hc => h ⟨hc.1, hc.2.1⟩)]

theorem paint_keep {p : Nat} {a : Paint} (h : a.Covers p → a.overwrite = false) {f : Nat} (hf : f ≠ 32) :
    paint p a.start a.length a.face a.overwrite f = f := by
  unfold paint
  rw [if_neg]
  rintro ⟨h1, h2, h3 | h3⟩
  · rw [h ⟨h1, h2⟩] at h3; exact absurd h3 (by simp)
  · exact hf h3

theorem paint_take {p : Nat} {a : Paint} (h : a.Covers p) {f : Nat} (hf : a.overwrite = true ∨ f = 32) :
    paint p a.start a.length a.face a.overwrite f = a.face := by
  unfold paint; exact if_pos ⟨h.1, h.2, hf⟩

theorem paintAll_not {p : Nat} {l : List Paint} (h : ∀ a ∈ l, ¬ a.Covers p) (f : Nat) : paintAll p l f = f := by
  induction l generalizing f with
  | nil => rfl
  | cons a l ih =>
    simp only [List.mem_cons, forall_eq_or_imp] at h
    rw [paintAll, paint_not h.1, ih h.2]

theorem paintAll_keep {p : Nat} {l : List Paint} (h : ∀ a ∈ l, a.Covers p → a.overwrite = false) {f : Nat} (hf : f ≠ 32) :
    paintAll p l f = f := by
  induction l with
  | nil => rfl
  | cons a l ih =>
    simp only [List.mem_cons, forall_eq_or_imp] at h
    rw [paintAll, paint_keep h.1 hf, ih h.2]

theorem painted_paintAll {p : Nat} {l : List Paint} {f : Nat} (h : Painted p l f) : paintAll p l 32 = f := by
  cases h with
  | none h => exact paintAll_not h 32
  | overwrite h1 h2 h3 h4 => rw [paintAll_append, paintAll, paint_take h1 (.inl h2), paintAll_keep h4 h3]
  | first h1 h2 h3 h4 => rw [paintAll_append, paintAll, paintAll_not h1, paint_take h2 (.inr rfl), paintAll_keep h4 h3]

/-- Every position has a face. -/
theorem painted_exists (p : Nat) (l : List Paint) (hv : Visible l) : ∃ f, Painted p l f := by
  suffices h : ∀ l : List Paint, Visible l → (∃ f, Painted p l f) ∧
      ((∀ a ∈ l, a.Covers p → a.overwrite = false) ∨ ∃ pre a post, l = pre ++ a :: post ∧ a.Covers p ∧ a.overwrite = true ∧
        ∀ b ∈ post, b.Covers p → b.overwrite = false) from (h l hv).1
  intro l hv
  induction l with
  | nil => exact ⟨⟨32, .none (by simp)⟩, .inl (by simp)⟩
  | cons a l ih =>
    have ha : a.face ≠ 32 := hv a (by simp)
    obtain ⟨⟨f, hf⟩, h2⟩ := ih (fun b hb => hv b (List.mem_cons_of_mem _ hb))
    rcases h2 with h2 | ⟨pre, b, post, rfl, h3, h4, h5⟩
    · by_cases hc : a.Covers p
      · by_cases ho : a.overwrite = true
        · exact ⟨⟨_, .overwrite (pre := []) hc ho ha h2⟩, .inr ⟨[], a, l, rfl, hc, ho, h2⟩⟩
        · refine ⟨⟨_, .first (pre := []) (by simp) hc ha h2⟩, .inl ?_⟩
          simp only [List.mem_cons, forall_eq_or_imp]
          exact ⟨fun _ => by simpa using ho, h2⟩
      · constructor
        · cases hf with
          | none h => exact ⟨32, .none (by simp only [List.mem_cons, forall_eq_or_imp]; exact ⟨hc, h⟩)⟩
          | @overwrite pre post b h6 h7 h8 h9 => exact ⟨_, .overwrite (pre := a :: pre) h6 h7 h8 h9⟩
          | @first pre post b h6 h7 h8 h9 =>
            exact ⟨_, .first (pre := a :: pre) (by simp only [List.mem_cons, forall_eq_or_imp]; exact ⟨hc, h6⟩) h7 h8 h9⟩
        · left
          simp only [List.mem_cons, forall_eq_or_imp]
          exact ⟨fun h => absurd h hc, h2⟩
    · refine ⟨⟨_, .overwrite (pre := a :: pre) h3 h4 (hv b (by simp)) h5⟩, .inr ⟨a :: pre, b, post, rfl, h3, h4, h5⟩⟩

theorem strncmp_eq {a b : List Nat} {n : Nat} (ha : a.length = n) (hb : b.length = n) (h0 : 0 ∉ a) : strncmp n a b = true ↔ a = b := by
  induction n generalizing a b with
  | zero =>
    rw [List.length_eq_zero_iff] at ha hb
    subst ha hb
    simp [strncmp]
  | succ n ih =>
    cases a with
    | nil => simp at ha
    | cons x a =>
      cases b with
      | nil => simp at hb
      | cons y b =>
        simp only [List.mem_cons, not_or] at h0
        have hx : (x == 0) = false := by simp; omega
        simp only [List.length_cons, Nat.add_right_cancel_iff] at ha hb
        rw [strncmp, hx, Bool.false_or, Bool.and_eq_true, ih ha hb h0.2]
        simp

end Clink.WordClass

namespace Clink.WordClass

open Spec

/-- No face is 0. -/
def NoNul (st : State) : Prop := 0 ∉ st.faces ∧ 0 ∉ st.words

theorem noNul_map {fs gs : List Nat} {p0 : Nat → Nat → Nat} (h : 0 ∉ fs) (hg : ∀ p : Nat, gs[p]? = (fs[p]?).map (p0 p))
    (h0 : ∀ p f, f ≠ 0 → p0 p f ≠ 0) : 0 ∉ gs := by
  intro hm
  obtain ⟨i, hi, he⟩ := List.getElem_of_mem hm
  have h1 := hg i
  rw [List.getElem?_eq_getElem hi, he] at h1
  cases hf : fs[i]? with
  | none => rw [hf] at h1; simp at h1
  | some f =>
    rw [hf] at h1
    simp only [Option.map_some, Option.some.injEq] at h1
    exact h0 i f (fun hc => h (hc ▸ List.mem_of_getElem? hf)) h1.symm

theorem paint_nonzero {p start n face f : Nat} {o : Bool} (h : face ≠ 0) (hf : f ≠ 0) : paint p start n face o f ≠ 0 := by
  unfold paint; split <;> assumption

theorem step_noNul (grow : Nat → Nat) {st st' : State} {l : List (List Nat × Nat)} (h : Inv st) (hn : NoNul st) {op : Op}
    (hop : op ≠ .ensure []) (hp : ∀ w s n f o, op = .apply w s n f o → f ≠ 0) (hs : step grow op st = some (st', l)) : NoNul st' := by
  cases op with
  | line n a =>
    obtain ⟨s1, h1, h2, h3, h4, h5, -⟩ := init_inv grow (st := {}) h n a
    simp only [step, h1, Option.map_some, Option.some.injEq, Prod.mk.injEq] at hs
    obtain ⟨rfl, -⟩ := hs
    exact ⟨by rw [h4]; simp, by rw [h5]; simp⟩
  | finish =>
    simp only [step, Option.some.injEq, Prod.mk.injEq] at hs
    obtain ⟨rfl, -⟩ := hs
    refine ⟨?_, hn.2⟩
    simp only [finish, List.mem_map, not_exists, not_and]
    rintro ⟨a, b⟩ hm
    have := List.of_mem_zip hm
    simp only
    split
    · intro hc; exact hn.2 (hc ▸ this.2)
    · intro hc; exact hn.1 (hc ▸ this.1)
  | classify c w wc a o =>
    simp only [step, Option.some.injEq, Prod.mk.injEq] at hs
    obtain ⟨rfl, -⟩ := hs
    exact hn
  | apply w start n face o =>
    obtain ⟨s1, h1, h2, h3, h4, h5, h6, h7, h8⟩ := apply_inv h w start n face o
    simp only [step, h1, Option.map_some, Option.some.injEq, Prod.mk.injEq] at hs
    obtain ⟨rfl, -⟩ := hs
    have hf := hp w start n face o rfl
    cases w with
    | true =>
      refine ⟨?_, noNul_map hn.2 h8 (fun p f hf' => paint_nonzero hf hf')⟩
      have : s1.faces = st.faces := List.ext_getElem? fun p => by rw [h7]; rfl
      rw [this]; exact hn.1
    | false =>
      refine ⟨noNul_map hn.1 h7 (fun p f hf' => paint_nonzero hf hf'), ?_⟩
      have : s1.words = st.words := List.ext_getElem? fun p => by rw [h8]; rfl
      rw [this]; exact hn.2
  | ensure s =>
    obtain ⟨-, -, e2, e3⟩ := step_paint grow h (by simp [Drawing]) hop hs
    have hz : ∀ p f : Nat, f ≠ 0 → paintAll p [] f ≠ 0 := fun p f hf => hf
    exact ⟨noNul_map hn.1 e2 hz, noNul_map hn.2 e3 hz⟩

theorem run_noNul (grow : Nat → Nat) (ops : List Op) {st : State} (h : Inv st) (hn : NoNul st)
    (hop : ∀ op ∈ ops, op ≠ .ensure []) (hp : ∀ w s n f o, Op.apply w s n f o ∈ ops → f ≠ 0) {st' : State}
    {l : List (List Nat × Nat)} (hr : run grow ops st = some (st', l)) : NoNul st' := by
  induction ops generalizing st l with
  | nil =>
    simp only [run, Option.some.injEq, Prod.mk.injEq] at hr
    obtain ⟨rfl, -⟩ := hr
    exact hn
  | cons op ops ih =>
    simp only [List.mem_cons, forall_eq_or_imp] at hop
    cases hs : step grow op st with
    | none => simp [run, hs] at hr
    | some x =>
      obtain ⟨s1, l1⟩ := x
      cases hr2 : run grow ops s1 with
      | none => simp [run, hs, hr2] at hr
      | some y =>
        obtain ⟨s2, l2⟩ := y
        simp only [run, hs, hr2, Option.bind_some, Option.map_some, Option.some.injEq, Prod.mk.injEq] at hr
        obtain ⟨rfl, -⟩ := hr
        have hi : Inv s1 := by
          have hinv : ∃ log, LogOk log st ∨ True := ⟨[], .inr trivial⟩
          cases op with
          | line n a =>
            obtain ⟨t, h1, h2, -⟩ := init_inv grow (st := {}) h n a
            simp only [step, h1, Option.map_some, Option.some.injEq, Prod.mk.injEq] at hs
            exact hs.1 ▸ h2
          | finish => simp only [step, Option.some.injEq, Prod.mk.injEq] at hs; exact hs.1 ▸ finish_inv h
          | classify c w wc a o => simp only [step, Option.some.injEq, Prod.mk.injEq] at hs; exact hs.1 ▸ classify_inv h c w wc a o
          | apply w start n face o =>
            obtain ⟨t, h1, h2, -⟩ := apply_inv h w start n face o
            simp only [step, h1, Option.map_some, Option.some.injEq, Prod.mk.injEq] at hs
            exact hs.1 ▸ h2
          | ensure s =>
            have hs0 : s ≠ [] := fun hc => hop.1 (by rw [hc])
            rcases ensure_inv grow h hs0 with ⟨i, d, h1, h2, h3⟩ | ⟨h1, h2, h3⟩ | ⟨t, h1, h2, h3, h4, -⟩ <;>
              simp only [step, h3, Option.map_some, Option.some.injEq, Prod.mk.injEq] at hs
            · exact hs.1 ▸ h
            · exact hs.1 ▸ h
            · exact hs.1 ▸ h4
        exact ih hi (step_noNul grow h hn hop.1 (fun w s n f o he => hp w s n f o (by simp [he])) hs) hop.2
          (fun w s n f o hm => hp w s n f o (List.mem_cons_of_mem _ hm)) hr2

theorem run_append (grow : Nat → Nat) (a b : List Op) (st : State) :
    run grow (a ++ b) st = (run grow a st).bind fun x => (run grow b x.1).map fun y => (y.1, x.2 ++ y.2) := by
  induction a generalizing st with
  | nil => cases h : run grow b st <;> simp [run, h]
  | cons op a ih =>
    simp only [List.cons_append, run, ih]
    cases step grow op st with
    | none => rfl
    | some x =>
      simp only [Option.bind_some]
      cases run grow a x.1 with
      | none => rfl
      | some y =>
        simp only [Option.bind_some, Option.map_some]
        cases run grow b y.1 <;> simp

/-- The class of a word, if there is one. -/
def infoAt (st : State) (c w : Nat) : Option Info := (((st.infos.getD [])[c]?).getD [])[w]?

theorem resize_get {α : Type} (l : List α) (n : Nat) (x : α) (i : Nat) :
    (resize l n x)[i]? = if i < l.length then l[i]? else if i < n then some x else none := by
  unfold resize
  by_cases h : i < l.length
  · rw [if_pos h, List.getElem?_append_left h]
  · rw [if_neg h, List.getElem?_append_right (by omega)]
    by_cases h2 : i < n
    · rw [if_pos h2, List.getElem?_replicate, if_pos (by omega)]
    · rw [if_neg h2, List.getElem?_replicate, if_neg (by omega)]

theorem resize_length {α : Type} (l : List α) (n : Nat) (x : α) : n ≤ (resize l n x).length := by
  simp [resize]; omega

theorem resize_getD_nil {l : List (List Info)} {n i : Nat} : ((resize l n [])[i]?).getD [] = (l[i]?).getD [] := by
  rw [resize_get]
  split
  · rfl
  · rw [List.getElem?_eq_none (by omega)]
    split <;> rfl

end Clink.WordClass
