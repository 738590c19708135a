import Verif.Spec.Sticky

namespace Clink.Sticky
open Spec

/-- Nothing has been changed. -/
def Clean (hist : List Text) (e : Ed) : Prop := e.mem = hist.map (fun l => (l, none)) ∧ e.undo = none

theorem maybeReplace_clean {hist : List Text} {e : Ed} (h : Clean hist e) : maybeReplace e = e := by
  unfold maybeReplace
  rw [h.1, List.getElem?_map]
  cases hist[e.off]? with
  | none => rfl
  | some l => simp only [Option.map_some, h.2]; rw [if_neg (by simp)]

theorem start_clean (hist : List Text) (init : Option Nat) : Clean hist (start hist init) := ⟨rfl, rfl⟩

/-- `Up` when nothing has been changed. -/
theorem up_clean {hist : List Text} {e : Ed} (h : Clean hist e) {i : Nat} {l : Text} (hi : i = if e.useCurr then e.off else e.off - 1)
    (hp : e.useCurr ∨ e.off > 0) (hl : hist[i]? = some l) :
    (up e).off = i ∧ (up e).buf = l ∧ (up e).useCurr = false ∧ (up e).init = e.init ∧ Clean hist (up e) := by
  have hc : Clean hist { e with saved := some (e.saved.getD (e.buf, e.undo)) } := ⟨h.1, h.2⟩
  have hm := maybeReplace_clean hc
  have hget : e.mem[i]? = some (l, none) := by rw [h.1, List.getElem?_map, hl]; rfl
  have : up e = { e with saved := some (e.saved.getD (e.buf, e.undo)), off := i, useCurr := false, buf := l, undo := none } := by
    unfold up
    simp only [hm]
    rw [if_pos hp, ← hi, hget]
  rw [this]
  exact ⟨rfl, rfl, rfl, rfl, h.1, rfl⟩

/-- `Down` when nothing has been changed. -/
theorem down_clean {hist : List Text} {e : Ed} (h : Clean hist e) {l : Text} (hl : hist[e.off + 1]? = some l) :
    (down e).off = e.off + 1 ∧ (down e).buf = l ∧ (down e).useCurr = false ∧ (down e).init = e.init ∧ Clean hist (down e) := by
  have hm := maybeReplace_clean h
  have hlt : e.off + 1 < hist.length := (List.getElem?_eq_some_iff.1 hl).1
  have hne : ¬ e.off = e.mem.length := by rw [h.1, List.length_map]; omega
  have hget : e.mem[e.off + 1]? = some (l, none) := by rw [h.1, List.getElem?_map, hl]; rfl
  have : down e = { e with off := e.off + 1, useCurr := false, buf := l, undo := none } := by
    unfold down
    simp only [hm]
    rw [if_neg hne, hget]
  rw [this]
  exact ⟨rfl, rfl, rfl, rfl, h.1, rfl⟩

theorem ups_clean {hist : List Text} (k : Nat) : ∀ {e : Ed}, Clean hist e → e.useCurr = false → e.off ≤ hist.length → k ≤ e.off → 0 < k →
    ∃ l, hist[e.off - k]? = some l ∧ ((ups k).foldl (key true) e).buf = l ∧ ((ups k).foldl (key true) e).off = e.off - k ∧
      ((ups k).foldl (key true) e).init = e.init ∧ Clean hist ((ups k).foldl (key true) e) := by
  induction k with
  | zero => intro e _ _ _ _ h; omega
  | succ k ih =>
    intro e hc hu hle hk _
    have hl : hist[e.off - 1]? = some (hist[e.off - 1]'(by omega)) := List.getElem?_eq_getElem (by omega)
    obtain ⟨a, b, c, d, f⟩ := up_clean hc (i := e.off - 1) (by rw [hu]; rfl) (.inr (by omega)) hl
    have hf : (ups (k + 1)).foldl (key true) e = (ups k).foldl (key true) (up e) := by
      unfold ups; rw [List.replicate_succ, List.foldl_cons]; rfl
    rw [hf]
    by_cases h0 : k = 0
    · subst h0
      exact ⟨_, hl, b, a, d, f⟩
    · obtain ⟨l, h1, h2, h3, h4, h5⟩ := ih f c (by rw [a]; omega) (by rw [a]; omega) (by omega)
      rw [a] at h1 h3
      have e1 : e.off - 1 - k = e.off - (k + 1) := by omega
      rw [e1] at h1 h3
      exact ⟨l, h1, h2, h3, h4.trans d, h5⟩

theorem downs_clean {hist : List Text} (k : Nat) : ∀ {e : Ed}, Clean hist e → e.off + k < hist.length → 0 < k →
    ∃ l, hist[e.off + k]? = some l ∧ ((downs k).foldl (key true) e).buf = l ∧ ((downs k).foldl (key true) e).off = e.off + k ∧
      ((downs k).foldl (key true) e).init = e.init ∧ Clean hist ((downs k).foldl (key true) e) := by
  induction k with
  | zero => intro e _ _ h; omega
  | succ k ih =>
    intro e hc hlt _
    have hl : hist[e.off + 1]? = some (hist[e.off + 1]'(by omega)) := List.getElem?_eq_getElem (by omega)
    obtain ⟨a, b, c, d, f⟩ := down_clean hc hl
    have hf : (downs (k + 1)).foldl (key true) e = (downs k).foldl (key true) (down e) := by
      unfold downs; rw [List.replicate_succ, List.foldl_cons]; rfl
    rw [hf]
    by_cases h0 : k = 0
    · subst h0
      exact ⟨_, hl, b, a, d, f⟩
    · obtain ⟨l, h1, h2, h3, h4, h5⟩ := ih f (by rw [a]; omega) (by omega)
      rw [a] at h1 h3
      have e1 : e.off + 1 + k = e.off + (k + 1) := by omega
      rw [e1] at h1 h3
      exact ⟨l, h1, h2, h3, h4.trans d, h5⟩

/-- Enter on an entry that was not changed. -/
theorem enter_clean {hist : List Text} {e : Ed} (hc : Clean hist e) {l : Text} (hl : hist[e.off]? = some l) (hb : e.buf = l) (hne : l ≠ []) :
    enter true e = (l, false, some e.off) := by
  have hlt : e.off < hist.length := (List.getElem?_eq_some_iff.1 hl).1
  have hlen : e.mem.length = hist.length := by rw [hc.1, List.length_map]
  have hs : save true e = some e.off := by
    unfold save; rw [if_pos rfl, if_pos (by omega)]
  have hget : e.mem[e.off]? = some (l, none) := by rw [hc.1, List.getElem?_map, hl]; rfl
  have ht : teardown e = e.mem := by unfold teardown; rw [hc.2, hget]
  have hcan : canAdd true e.mem (some e.off) e.buf = false := by
    unfold canAdd
    rw [if_pos rfl]
    simp only [hget, hb]
    simp
  unfold enter
  simp only [hs, ht, hcan]
  rw [if_pos ⟨by rw [hb]; exact hne, trivial⟩, hb]
  rfl

/-- What is true while a line is edited, as long as `Up` is not used on the first entry. -/
structure Inv (hist : List Text) (e : Ed) : Prop where
  len : e.mem.length = hist.length
  off : e.off ≤ hist.length
  plain : ∀ (i : Nat) (l : Text), e.mem[i]? = some (l, none) → hist[i]? = some l
  base : ∀ (i : Nat) (l : Text) (n : Nat) (b : Text), e.mem[i]? = some (l, some (n, b)) → hist[i]? = some b
  undoNone : ∀ (l : Text) (d : Undo), e.mem[e.off]? = some (l, d) → e.undo = none → d = none ∧ (e.buf = l ∨ (e.buf = [] ∧ e.init.isSome))
  undoSome : ∀ (n : Nat) (b : Text), e.off < hist.length → e.undo = some (n, b) → hist[e.off]? = some b

theorem inv_start (hist : List Text) (init : Option Nat) : Inv hist (start hist init) := by
  have hm : ∀ i : Nat, (start hist init).mem[i]? = hist[i]?.map fun l => (l, none) := by
    intro i; unfold start; rw [List.getElem?_map]
  have hnone : ∀ (i : Nat) (l : Text) (d : Undo), (start hist init).mem[i]? = some (l, d) → d = none ∧ hist[i]? = some l := by
    intro i l d h
    rw [hm] at h
    cases hh : hist[i]? with
    | none => rw [hh] at h; cases h
    | some x =>
      rw [hh] at h
      injection h with h
      injection h with h1 h2
      exact ⟨h2.symm, by rw [h1]⟩
  constructor
  · unfold start; simp
  · unfold start
    cases init with
    | none => exact Nat.le_refl _
    | some p => simp only; split <;> omega
  · intro i l h; exact (hnone i l none h).2
  · intro i l n b h; exact absurd (hnone i l _ h).1 (by simp)
  · intro l d h _
    refine ⟨(hnone _ l d h).1, .inr ⟨rfl, ?_⟩⟩
    cases init with
    | none =>
      have : (start hist none).off = hist.length := rfl
      rw [this] at h
      have := (hnone _ l d h).2
      rw [List.getElem?_eq_none (Nat.le_refl _)] at this
      cases this
    | some p => rfl
  · intro n b _ h; cases h

/-- After `maybeReplace` the entries still know their text. -/
structure Mem (hist : List Text) (mem : List (Text × Undo)) : Prop where
  len : mem.length = hist.length
  plain : ∀ (i : Nat) (l : Text), mem[i]? = some (l, none) → hist[i]? = some l
  base : ∀ (i : Nat) (l : Text) (n : Nat) (b : Text), mem[i]? = some (l, some (n, b)) → hist[i]? = some b

theorem mem_replace {hist : List Text} {e : Ed} (h : Inv hist e) : Mem hist (maybeReplace e).mem ∧ (maybeReplace e).off = e.off ∧
    (maybeReplace e).useCurr = e.useCurr ∧ (maybeReplace e).init = e.init ∧ (maybeReplace e).buf = e.buf := by
  unfold maybeReplace
  cases hm : e.mem[e.off]? with
  | none => exact ⟨⟨h.len, h.plain, h.base⟩, rfl, rfl, rfl, rfl⟩
  | some r =>
    obtain ⟨l, d⟩ := r
    simp only
    by_cases hd : d ≠ e.undo
    · rw [if_pos hd]
      refine ⟨⟨by rw [List.length_set]; exact h.len, ?_, ?_⟩, rfl, rfl, rfl, rfl⟩
      · intro i l' hi
        rw [List.getElem?_set] at hi
        by_cases he : e.off = i
        · subst he
          rw [if_pos rfl] at hi
          have hu : e.undo = none := by
            split at hi
            · injection hi with hi; injection hi with _ h2
            · cases hi
          exact absurd ((h.undoNone l d hm hu).1.trans hu.symm) hd
        · rw [if_neg he] at hi; exact h.plain i l' hi
      · intro i l' n b hi
        rw [List.getElem?_set] at hi
        by_cases he : e.off = i
        · subst he
          rw [if_pos rfl] at hi
          split at hi
          · rename_i hlt
            injection hi with hi; injection hi with _ h2
            exact h.undoSome n b (by rw [← h.len]; exact hlt) h2
          · cases hi
        · rw [if_neg he] at hi; exact h.base i l' n b hi
    · rw [if_neg hd]
      exact ⟨⟨h.len, h.plain, h.base⟩, rfl, rfl, rfl, rfl⟩

/-- An entry has been loaded. -/
theorem inv_load {hist : List Text} {e : Ed} (hm : Mem hist e.mem) {l : Text} {d : Undo} (hl : e.mem[e.off]? = some (l, d)) (hb : e.buf = l)
    (hu : e.undo = d) : Inv hist e := by
  refine ⟨hm.len, ?_, hm.plain, hm.base, ?_, ?_⟩
  · have := (List.getElem?_eq_some_iff.1 hl).1
    rw [hm.len] at this; omega
  · intro l' d' h hn
    rw [hl] at h
    injection h with h
    injection h with h1 h2
    exact ⟨by rw [← h2, ← hu]; exact hn, .inl (by rw [hb, h1])⟩
  · intro n b _ h
    exact hm.base _ l n b (by rw [hl, ← hu, h])

/-- At the end of the history. -/
theorem inv_end {hist : List Text} {e : Ed} (hm : Mem hist e.mem) (ho : e.off = hist.length) : Inv hist e := by
  refine ⟨hm.len, by omega, hm.plain, hm.base, ?_, ?_⟩
  · intro l d h
    rw [List.getElem?_eq_none (by rw [hm.len]; omega)] at h; cases h
  · intro n b h; omega

theorem replace_end {e : Ed} (h : e.mem[e.off]? = none) : maybeReplace e = e := by unfold maybeReplace; rw [h]

theorem inv_up {hist : List Text} {e : Ed} (h : Inv hist e) (hp : 0 < e.off) : Inv hist (up e) ∧ e.off ≤ (up e).off + 1 := by
  have h' : Inv hist { e with saved := some (e.saved.getD (e.buf, e.undo)) } := ⟨h.len, h.off, h.plain, h.base, h.undoNone, h.undoSome⟩
  obtain ⟨a, b, c, _, _⟩ := mem_replace h'
  unfold up
  simp only
  generalize hg : maybeReplace { e with saved := some (e.saved.getD (e.buf, e.undo)) } = e2 at a b c ⊢
  simp only at b c
  rw [if_pos (Or.inr (by omega))]
  cases hx : e2.mem[if e2.useCurr = true then e2.off else e2.off - 1]? with
  | some r =>
    obtain ⟨l, d⟩ := r
    refine ⟨inv_load (l := l) (d := d) a hx rfl rfl, ?_⟩
    simp only
    split <;> omega
  | none =>
    have hu : e2.useCurr = true := by
      cases hh : e2.useCurr with
      | true => rfl
      | false =>
        rw [hh] at hx
        simp only [Bool.false_eq_true, if_false] at hx
        rw [List.getElem?_eq_none_iff, a.len] at hx
        have := h.off
        omega
    rw [hu] at hx
    simp only [if_true] at hx
    rw [List.getElem?_eq_none_iff, a.len] at hx
    have := h.off
    refine ⟨inv_end a (by simp only; omega), by simp only; omega⟩

theorem inv_down {hist : List Text} {e : Ed} (h : Inv hist e) : Inv hist (down e) ∧ e.off ≤ (down e).off := by
  obtain ⟨a, b, _, _, _⟩ := mem_replace h
  unfold down
  simp only
  generalize hg : maybeReplace e = e2 at a b ⊢
  have ho := h.off
  cases hx : e2.mem[if e2.off = e2.mem.length then e2.off else e2.off + 1]? with
  | some r =>
    obtain ⟨l, d⟩ := r
    refine ⟨inv_load (l := l) (d := d) a hx rfl rfl, ?_⟩
    simp only
    split <;> omega
  | none =>
    have hoff : (if e2.off = e2.mem.length then e2.off else e2.off + 1) = hist.length := by
      rw [List.getElem?_eq_none_iff, a.len] at hx
      rw [a.len]
      split at hx <;> split <;> omega
    simp only
    rw [hoff]
    cases e2.saved with
    | some s => exact ⟨inv_end a rfl, ho⟩
    | none => exact ⟨inv_end a rfl, ho⟩

/-- The text changes, where `hb` says that the line is the entry if it was not changed before. -/
theorem inv_insert {hist : List Text} {e : Ed} (h : Inv hist e) (hb : e.off < hist.length → e.undo = none → hist[e.off]? = some e.buf) (l : Text) :
    Inv hist (insert l e) := by
  unfold insert
  refine ⟨h.len, h.off, h.plain, h.base, ?_, ?_⟩
  · intro l' d _ hn
    simp only at hn
    cases hu : e.undo with
    | none => rw [hu] at hn; cases hn
    | some r => rw [hu] at hn; cases hn
  · intro n b hlt hn
    simp only at hlt hn ⊢
    cases hu : e.undo with
    | none =>
      rw [hu] at hn
      simp only [Option.some.injEq, Prod.mk.injEq] at hn
      rw [← hn.2]
      exact hb hlt hu
    | some r =>
      obtain ⟨m, c⟩ := r
      rw [hu] at hn
      simp only [Option.some.injEq, Prod.mk.injEq] at hn
      rw [← hn.2]
      exact h.undoSome m c hlt hu

theorem inv_type {hist : List Text} {e : Ed} (h : Inv hist e) (l : Text) : Inv hist (type true l e) ∧ e.off ≤ (type true l e).off := by
  have hm : Mem hist e.mem := ⟨h.len, h.plain, h.base⟩
  have ho := h.off
  have hbuf : e.off < hist.length → e.undo = none → (e.buf = [] → e.init = none) → hist[e.off]? = some e.buf := by
    intro hlt hu hi
    have hlt' : e.off < e.mem.length := by rw [h.len]; exact hlt
    have hg : e.mem[e.off]? = some (e.mem[e.off].1, e.mem[e.off].2) := List.getElem?_eq_getElem hlt'
    obtain ⟨h1, h2⟩ := h.undoNone _ _ hg hu
    rw [h1] at hg
    rcases h2 with h2 | ⟨h2, h3⟩
    · rw [h2]; exact h.plain _ _ hg
    · rw [hi h2] at h3; cases h3
  have hoff : (type true l e).off = (changing true e).off := rfl
  rw [hoff]
  unfold type
  by_cases hi : (true = true ∧ e.init.isSome = true)
  · by_cases hb : e.buf = []
    · have hc : changing true e = { e with init := none, useCurr := false, off := e.mem.length } := by
        unfold changing; rw [if_pos hi, if_pos hb]
      rw [hc]
      exact ⟨inv_end hm h.len, by show e.off ≤ e.mem.length; rw [h.len]; exact ho⟩
    · have hc : changing true e = { e with init := none, useCurr := false } := by
        unfold changing; rw [if_pos hi, if_neg hb]
      rw [hc]
      refine ⟨inv_insert (e := { e with init := none, useCurr := false }) ⟨h.len, h.off, h.plain, h.base, ?_, h.undoSome⟩ (fun a b => hbuf a b (fun c => absurd c hb)) l, Nat.le_refl _⟩
      intro l' d a b
      obtain ⟨x, y⟩ := h.undoNone l' d a b
      exact ⟨x, y.elim .inl (fun z => absurd z.1 hb)⟩
  · have hc : changing true e = e := by unfold changing; rw [if_neg hi]
    rw [hc]
    refine ⟨inv_insert h (fun a b => hbuf a b (fun _ => ?_)) l, Nat.le_refl _⟩
    cases hh : e.init with
    | none => rfl
    | some p => exact absurd ⟨rfl, by rw [hh]; rfl⟩ hi

theorem inv_keys {hist : List Text} (ks : List Key) : ∀ {e : Ed}, Inv hist e → ks.count .up ≤ e.off → Inv hist (ks.foldl (key true) e) := by
  induction ks with
  | nil => intro e h _; exact h
  | cons k ks ih =>
    intro e h hc
    rw [List.foldl_cons]
    cases k with
    | up =>
      rw [List.count_cons_self] at hc
      obtain ⟨a, b⟩ := inv_up h (by omega)
      exact ih a (by show ks.count .up ≤ (up e).off; omega)
    | down =>
      rw [List.count_cons_of_ne (by decide)] at hc
      obtain ⟨a, b⟩ := inv_down h
      exact ih a (by show ks.count .up ≤ (down e).off; omega)
    | type l =>
      rw [List.count_cons_of_ne (by simp)] at hc
      obtain ⟨a, b⟩ := inv_type h l
      exact ih a (by show ks.count .up ≤ (type true l e).off; omega)

/-- After Enter the entry has its text back. -/
theorem teardown_get {hist : List Text} {e : Ed} (h : Inv hist e) {l : Text} (hl : hist[e.off]? = some l) : ∃ d, (teardown e)[e.off]? = some (l, d) := by
  have hlt : e.off < hist.length := (List.getElem?_eq_some_iff.1 hl).1
  have hlt' : e.off < e.mem.length := by rw [h.len]; exact hlt
  have hg : e.mem[e.off]? = some (e.mem[e.off].1, e.mem[e.off].2) := List.getElem?_eq_getElem hlt'
  cases hu : e.undo with
  | none =>
    have ht : teardown e = e.mem := by unfold teardown; rw [hu, hg]
    have h1 := (h.undoNone _ _ hg hu).1
    rw [h1] at hg
    have := h.plain _ _ hg
    rw [hl] at this
    injection this with this
    exact ⟨none, by rw [ht, hg, this]⟩
  | some r =>
    obtain ⟨n, b⟩ := r
    have ht : teardown e = e.mem.set e.off (b, none) := by unfold teardown; rw [hu, hg]
    have := h.undoSome n b hlt hu
    rw [hl] at this
    injection this with this
    exact ⟨none, by rw [ht, List.getElem?_set_self hlt', this]⟩

/-- As long as the position from before is kept, nothing was changed. -/
def Kept (hist : List Text) (e : Ed) : Prop := e.init.isSome → Clean hist e ∧ ∀ s, e.saved = some s → s.2 = none

theorem kept_up {hist : List Text} {e : Ed} (h : Kept hist e) : Kept hist (up e) := by
  have hi : (up e).init = e.init := by
    unfold up
    simp only
    have : (maybeReplace { e with saved := some (e.saved.getD (e.buf, e.undo)) }).init = e.init := by
      unfold maybeReplace; split
      · rfl
      · split <;> rfl
    split <;> exact this
  intro hs
  rw [hi] at hs
  obtain ⟨hc, hsv⟩ := h hs
  have hc' : Clean hist { e with saved := some (e.saved.getD (e.buf, e.undo)) } := ⟨hc.1, hc.2⟩
  have hm := maybeReplace_clean hc'
  have hd : ∀ s, some (e.saved.getD (e.buf, e.undo)) = some s → s.2 = none := by
    intro s hh
    injection hh with hh
    subst hh
    cases hx : e.saved with
    | none => exact hc.2
    | some t => exact hsv t hx
  have hget : ∀ (i : Nat) (l : Text) (d : Undo), e.mem[i]? = some (l, d) → d = none := by
    intro i l d hh
    rw [hc.1, List.getElem?_map] at hh
    cases hx : hist[i]? with
    | none => rw [hx] at hh; cases hh
    | some x => rw [hx] at hh; injection hh with hh; injection hh with _ h2; exact h2.symm
  unfold up
  simp only [hm]
  split
  · rename_i l d hx
    refine ⟨⟨hc.1, ?_⟩, hd⟩
    split at hx
    · exact hget _ _ _ hx
    · cases hx
  · refine ⟨⟨hc.1, hc.2⟩, ?_⟩
    intro s hh
    simp only at hh
    split at hh
    · exact hd s hh
    · cases hh

theorem kept_down {hist : List Text} {e : Ed} (h : Kept hist e) : Kept hist (down e) := by
  have hi : (down e).init = e.init := by
    unfold down
    simp only
    have : (maybeReplace e).init = e.init := by
      unfold maybeReplace; split
      · rfl
      · split <;> rfl
    split
    · exact this
    · split <;> exact this
  intro hs
  rw [hi] at hs
  obtain ⟨hc, hsv⟩ := h hs
  have hm := maybeReplace_clean hc
  have hget : ∀ (i : Nat) (l : Text) (d : Undo), e.mem[i]? = some (l, d) → d = none := by
    intro i l d hh
    rw [hc.1, List.getElem?_map] at hh
    cases hx : hist[i]? with
    | none => rw [hx] at hh; cases hh
    | some x => rw [hx] at hh; injection hh with hh; injection hh with _ h2; exact h2.symm
  unfold down
  simp only [hm]
  split
  · rename_i l d hx
    exact ⟨⟨hc.1, hget _ _ _ hx⟩, hsv⟩
  · split
    · rename_i l d hx
      exact ⟨⟨hc.1, hsv _ hx⟩, by simp⟩
    · exact ⟨hc, hsv⟩

theorem kept_type {hist : List Text} {e : Ed} (l : Text) : Kept hist (type true l e) := by
  intro hs
  have : (type true l e).init = (changing true e).init := rfl
  rw [this] at hs
  unfold changing at hs
  split at hs
  · cases hs
  · rename_i h; exact absurd ⟨rfl, hs⟩ h

theorem kept_keys {hist : List Text} (ks : List Key) : ∀ {e : Ed}, Kept hist e → Kept hist (ks.foldl (key true) e) := by
  induction ks with
  | nil => intro e h; exact h
  | cons k ks ih =>
    intro e h
    rw [List.foldl_cons]
    cases k with
    | up => exact ih (kept_up h)
    | down => exact ih (kept_down h)
    | type l => exact ih (kept_type l)

theorem kept_start (hist : List Text) (init : Option Nat) : Kept hist (start hist init) :=
  fun _ => ⟨start_clean hist init, by intro s h; cases h⟩

/-- Nothing was changed and the line is an entry, or empty. -/
structure Browse (hist : List Text) (e : Ed) : Prop where
  clean : Clean hist e
  off : e.off ≤ hist.length
  line : (hist[e.off]? = some e.buf ∧ e.saved = some ([], none) ∧ e.useCurr = false) ∨
    (e.buf = [] ∧ (e.saved = none ∨ e.saved = some ([], none)) ∧ (e.off = hist.length ∨ e.useCurr = true))

theorem browse_up {hist : List Text} {e : Ed} (h : Browse hist e) : Browse hist (up e) ∧ (up e).useCurr = false := by
  have hc' : Clean hist { e with saved := some (e.saved.getD (e.buf, e.undo)) } := ⟨h.clean.1, h.clean.2⟩
  have hm := maybeReplace_clean hc'
  have hsv : e.saved.getD (e.buf, e.undo) = ([], none) := by
    rcases h.line with ⟨_, h2, _⟩ | ⟨h1, h2, _⟩
    · rw [h2]; rfl
    · rcases h2 with h2 | h2
      · rw [h2, h1, h.clean.2]; rfl
      · rw [h2]; rfl
  have ho := h.off
  unfold up
  simp only [hm]
  rw [hsv]
  split
  · rename_i l d hx
    split at hx
    · rw [h.clean.1, List.getElem?_map] at hx
      cases hy : hist[if e.useCurr = true then e.off else e.off - 1]? with
      | none => rw [hy] at hx; cases hx
      | some x =>
        rw [hy] at hx
        injection hx with hx
        injection hx with h1 h2
        subst h1; subst h2
        refine ⟨⟨⟨h.clean.1, rfl⟩, ?_, .inl ⟨hy, rfl, rfl⟩⟩, rfl⟩
        have := (List.getElem?_eq_some_iff.1 hy).1
        simp only; omega
    · cases hx
  · rename_i hx
    refine ⟨⟨⟨h.clean.1, h.clean.2⟩, ho, ?_⟩, rfl⟩
    simp only
    split at hx
    · rename_i hp
      rw [h.clean.1, List.getElem?_eq_none_iff, List.length_map] at hx
      rcases h.line with ⟨h1, h2, h3⟩ | ⟨h1, h2, h3⟩
      · rw [h3] at hx
        simp only [Bool.false_eq_true, if_false] at hx
        have := (List.getElem?_eq_some_iff.1 h1).1
        omega
      · refine .inr ⟨h1, ?_, .inl ?_⟩
        · rcases h2 with h2 | h2
          · rw [h2]; exact .inl rfl
          · rw [h2]; exact .inr rfl
        · split at hx
          · omega
          · rename_i hu
            rcases hp with hp | hp
            · exact absurd hp hu
            · omega
    · rename_i hp
      rcases h.line with ⟨h1, h2, h3⟩ | ⟨h1, h2, h3⟩
      · exact .inl ⟨h1, by rw [h2]; rfl, by simp⟩
      · refine .inr ⟨h1, ?_, .inl ?_⟩
        · rcases h2 with h2 | h2
          · rw [h2]; exact .inl rfl
          · rw [h2]; exact .inr rfl
        · rcases h3 with h3 | h3
          · exact h3
          · exact absurd (.inl h3) hp

theorem browse_down {hist : List Text} {e : Ed} (h : Browse hist e) (hu : e.useCurr = false) : Browse hist (down e) ∧ (down e).useCurr = false := by
  have hm := maybeReplace_clean h.clean
  have ho := h.off
  have hlen : e.mem.length = hist.length := by rw [h.clean.1, List.length_map]
  unfold down
  simp only [hm, hlen]
  split
  · rename_i l d hx
    rw [h.clean.1, List.getElem?_map] at hx
    cases hy : hist[if e.off = hist.length then e.off else e.off + 1]? with
    | none => rw [hy] at hx; cases hx
    | some x =>
      rw [hy] at hx
      injection hx with hx
      injection hx with h1 h2
      subst h1; subst h2
      have hlt := (List.getElem?_eq_some_iff.1 hy).1
      have hne : e.off ≠ hist.length := by intro hh; rw [if_pos hh] at hlt; omega
      have hs : e.saved = some ([], none) := by
        rcases h.line with ⟨_, h2, _⟩ | ⟨_, _, h3⟩
        · exact h2
        · rcases h3 with h3 | h3
          · exact absurd h3 hne
          · rw [hu] at h3; cases h3
      refine ⟨⟨⟨h.clean.1, rfl⟩, ?_, .inl ⟨hy, hs, rfl⟩⟩, rfl⟩
      simp only; omega
  · rename_i hx
    rw [h.clean.1, List.getElem?_eq_none_iff, List.length_map] at hx
    have he : (if e.off = hist.length then e.off else e.off + 1) = hist.length := by
      split at hx <;> split <;> omega
    rw [he]
    split
    · rename_i l d hs
      have : l = [] ∧ d = none := by
        rcases h.line with ⟨_, h2, _⟩ | ⟨_, h2, _⟩
        · rw [h2] at hs; injection hs with hs; injection hs with a b; exact ⟨a.symm, b.symm⟩
        · rcases h2 with h2 | h2
          · rw [h2] at hs; cases hs
          · rw [h2] at hs; injection hs with hs; injection hs with a b; exact ⟨a.symm, b.symm⟩
      refine ⟨⟨⟨h.clean.1, this.2⟩, Nat.le_refl _, .inr ⟨this.1, .inl rfl, .inl rfl⟩⟩, rfl⟩
    · rename_i hs
      refine ⟨⟨⟨h.clean.1, h.clean.2⟩, Nat.le_refl _, .inr ⟨?_, .inl hs, .inl rfl⟩⟩, rfl⟩
      rcases h.line with ⟨_, h2, _⟩ | ⟨h1, _, _⟩
      · rw [h2] at hs; cases hs
      · exact h1

theorem browse_keys {hist : List Text} (ks : List Key) : ∀ {e : Ed}, Browse hist e → e.useCurr = false → (∀ k ∈ ks, k = .up ∨ k = .down) →
    Browse hist (ks.foldl (key true) e) := by
  induction ks with
  | nil => intro e h _ _; exact h
  | cons k ks ih =>
    intro e h hu hk
    rw [List.foldl_cons]
    rcases hk k List.mem_cons_self with rfl | rfl
    · obtain ⟨a, b⟩ := browse_up h
      exact ih a b (fun k' h' => hk k' (List.mem_cons_of_mem _ h'))
    · obtain ⟨a, b⟩ := browse_down h hu
      exact ih a b (fun k' h' => hk k' (List.mem_cons_of_mem _ h'))

end Clink.Sticky
