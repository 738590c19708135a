import Verif.Proof.SuggList

/-! C73: in the suggestion list the selected suggestion exists and is visible, and keys select what they should. -/

namespace Clink.SuggList

open Spec (Good Full margin target)

/-- Where the code fails: the mouse wheel when the input line is selected. -/
def Trouble (s : S) : Ev → Prop
  | .wheelUp n => s.index = -1 ∧ 0 < n
  | _ => False

/-- There are not more suggestions than a 32-bit number can count. -/
def Small (s : S) : Prop := s.count < 2147483648

instance (s : S) : Decidable (Small s) := inferInstanceAs (Decidable (_ < _))

/-- When the list is shown, and then whatever happens. -/
inductive Reach (c : Cfg) : S → Prop
  | init (count : Nat) (avail : Int) : count < 2147483648 → Reach c (layout avail { count := count, vis := 0, maxRows := 0 })
  | step (s : S) (avail : Int) (draws : Bool) (e : Ev) : Reach c s → ¬ Trouble s e → (∀ n, e = .remove n → (n : Int) ≤ s.count) → Small (step c avail draws s e) →
      Reach c (step c avail draws s e)

/-- The same without removing anything and with at least one row. -/
inductive Calm (c : Cfg) : S → Prop
  | init (count : Nat) (avail : Int) : count < 2147483648 → 0 < (layout avail { count := count, vis := 0, maxRows := 0 }).vis →
      Calm c (layout avail { count := count, vis := 0, maxRows := 0 })
  | step (s : S) (avail : Int) (draws : Bool) (e : Ev) : Calm c s → ¬ Trouble s e → (∀ n, e ≠ .remove n) → Small (step c avail draws s e) →
      0 < (step c avail draws s e).vis →
      Calm c (step c avail draws s e)

/-- `Good`, and `m_max_rows` is `m_visible_rows`. -/
def Inv (s : S) : Prop := Good s ∧ s.maxRows = s.vis

theorem layout_spec (avail : Int) (s : S) : (layout avail s).index = s.index ∧ (layout avail s).top = s.top ∧ (layout avail s).count = s.count ∧
    (layout avail s).ignore = s.ignore ∧ (layout avail s).maxRows = (layout avail s).vis ∧ (layout avail s).vis ≤ 10 ∧
    (layout avail s).vis ≤ max s.count 0 ∧ (layout avail s).vis ≤ max 0 avail ∧ (s.maxRows ≠ 0 → (layout avail s).vis ≤ s.maxRows) := by
  refine ⟨rfl, rfl, rfl, rfl, rfl, ?_⟩
  show (if s.maxRows ≠ 0 then min (min (if min 10 s.count > avail ∧ avail < 3 then 0 else min 10 s.count) avail) s.maxRows
      else min (if min 10 s.count > avail ∧ avail < 3 then 0 else min 10 s.count) avail) ≤ 10 ∧
    (if s.maxRows ≠ 0 then min (min (if min 10 s.count > avail ∧ avail < 3 then 0 else min 10 s.count) avail) s.maxRows
      else min (if min 10 s.count > avail ∧ avail < 3 then 0 else min 10 s.count) avail) ≤ max s.count 0 ∧
    (if s.maxRows ≠ 0 then min (min (if min 10 s.count > avail ∧ avail < 3 then 0 else min 10 s.count) avail) s.maxRows
      else min (if min 10 s.count > avail ∧ avail < 3 then 0 else min 10 s.count) avail) ≤ max 0 avail ∧
    (s.maxRows ≠ 0 → (if s.maxRows ≠ 0 then min (min (if min 10 s.count > avail ∧ avail < 3 then 0 else min 10 s.count) avail) s.maxRows
      else min (if min 10 s.count > avail ∧ avail < 3 then 0 else min 10 s.count) avail) ≤ s.maxRows)
  split <;> split <;> omega

/-- The list after a change of the selection. -/
theorem navigated_spec (c : Cfg) (avail : Int) (draws : Bool) (s : S) (h0 : -1 ≤ s.index) (h1 : s.index < s.count) (ht : 0 ≤ s.top) :
    Inv (navigated c avail draws s) ∧ (navigated c avail draws s).index = s.index ∧ (navigated c avail draws s).count = s.count ∧
    (navigated c avail draws s).vis = (layout avail s).vis ∧
    (0 < (navigated c avail draws s).vis → (s.top + (navigated c avail draws s).vis ≤ s.count ∨ s.index = -1) →
      (navigated c avail draws s).top + (navigated c avail draws s).vis ≤ s.count) ∧
    (0 < (navigated c avail draws s).vis → s.ignore = false → 0 ≤ s.index →
      (navigated c avail draws s).top ≤ max 0 (s.index - margin c.ofs (navigated c avail draws s).vis) ∧
      min (s.count - (navigated c avail draws s).vis) (s.index + margin c.ofs (navigated c avail draws s).vis - (navigated c avail draws s).vis + 1) ≤
        (navigated c avail draws s).top) ∧
    (0 < (navigated c avail draws s).vis → s.ignore = true → s.top ≤ s.index → s.index < s.top + (navigated c avail draws s).vis →
      (navigated c avail draws s).top = s.top) := by
  obtain ⟨l1, l2, l3, l4, l5, l6, l7, -, -⟩ := layout_spec avail s
  unfold navigated
  generalize layout avail s = u at *
  obtain ⟨q1, q2, q3, q4, q5⟩ := updateTop_same c u
  by_cases hv : 0 < u.vis
  · have hd : display c draws u = updateTop c u := by
      unfold display
      rw [if_neg (by omega), if_pos (by omega)]
    rw [hd]
    obtain ⟨t1, t2, t3, t4, t5⟩ := updateTop_top c u hv (by omega) (by omega) (by omega)
    have tI : u.ignore = true → u.top ≤ u.index → u.index < u.top + u.vis → (updateTop c u).top = u.top := by
      intro a b d
      have er : reveal u = u := by
        unfold reveal
        rw [if_neg (by omega)]
        simp only []
        rw [if_neg (by omega)]
      unfold updateTop
      simp only [er, a, if_true]
    generalize updateTop c u = w at *
    refine ⟨⟨⟨by omega, by omega, t1, by omega, fun _ => ⟨by omega, fun h => ?_, fun h => ?_⟩⟩, by omega⟩, by omega, by omega, by omega, ?_, ?_, ?_⟩
    · have := t2 (by omega) (by omega)
      omega
    · exact t3 (by omega)
    · intro _ h
      rcases h with h | h
      · have := t4 (by omega) (by omega)
        omega
      · have := t3 (by omega)
        omega
    · intro _ a b
      have := t5 (by rw [l4]; exact a) (by omega)
      rw [q3, ← l1, ← l3]
      exact this
    · intro _ a b d
      rw [tI (by rw [l4]; exact a) (by omega) (by omega), l2]
  · have hd : 0 ≤ (display c draws u).top ∧ Same u (display c draws u) := by
      unfold display
      split
      · exact ⟨by omega, rfl, rfl, rfl, rfl, rfl⟩
      · split
        · refine ⟨?_, q1, q2, q3, q4, q5⟩
          have r1 : 0 ≤ (reveal u).top := by
            unfold reveal
            split
            · show 0 ≤ max 0 u.index
              omega
            · simp only []
              split
              · show 0 ≤ max 0 (u.index - (min u.count u.vis - 1))
                omega
              · omega
          have ho : ¬ scrollOfs c (reveal u) > 0 := by
            have := (reveal_same u).2.2.1
            unfold scrollOfs
            rw [this]
            split <;> omega
          unfold updateTop
          simp only []
          split
          · exact r1
          · first
            | exact r1
            | (rw [if_neg ho]; exact r1)
        · exact ⟨by omega, rfl, rfl, rfl, rfl, rfl⟩
    obtain ⟨d0, d1, d2, d3, d4, d5⟩ := hd
    generalize display c draws u = w at *
    exact ⟨⟨⟨by omega, by omega, d0, by omega, fun h => by omega⟩, by omega⟩, by omega, by omega, by omega, fun h => by omega, fun h => by omega, fun h => by omega⟩

theorem uMin_pos (y : Int) (n : Nat) (h : 0 ≤ y) (h2 : y < 4294967296) : uMin y n = min y n := by
  unfold uMin
  omega

theorem pgUp_spec (c : Cfg) (s : S) (hg : Good s) (hv : 0 < s.vis) (h : 0 < s.index) : 0 ≤ pgUp c s ∧ pgUp c s < s.index ∧ s.index ≤ pgUp c s + s.vis := by
  have hb := scrollOfs_bound c s hv
  obtain ⟨g1, g2, g3, g4, g5⟩ := hg
  obtain ⟨v1, v2, v3⟩ := g5 hv
  have := v2 (by omega)
  unfold pgUp
  simp only []
  generalize scrollOfs c s = o at *
  split <;> omega

theorem pgDn_spec (c : Cfg) (s : S) (hg : Good s) (hv : 0 < s.vis) (h0 : 0 ≤ s.index) (h1 : s.index < s.count - 1) :
    0 ≤ pgDn c s ∧ pgDn c s < s.count ∧ pgDn c s ≤ s.index + s.vis ∧ (s.index < s.top + s.vis - scrollOfs c s → s.index < pgDn c s) := by
  have hb := scrollOfs_bound c s hv
  obtain ⟨g1, g2, g3, g4, g5⟩ := hg
  obtain ⟨v1, v2, v3⟩ := g5 hv
  have := v2 (by omega)
  unfold pgDn
  simp only []
  generalize scrollOfs c s = o at *
  split <;> omega

/-- What a step is: nothing, or a new selection that is then shown. -/
theorem step_nav (c : Cfg) (avail : Int) (draws : Bool) (s : S) (e : Ev) (hg : Inv s) (hs : Small s) (ht : ¬ Trouble s e)
    (hr : ∀ n, e = .remove n → (n : Int) ≤ s.count) :
    (step c avail draws s e).index = s.index ∧ (step c avail draws s e).top = s.top ∧ (step c avail draws s e).count = s.count ∧
      (step c avail draws s e).vis = s.vis ∧ (step c avail draws s e).maxRows = s.maxRows ∨
    ∃ u : S, step c avail draws s e = navigated c avail draws u ∧ -1 ≤ u.index ∧ u.index < u.count ∧ 0 ≤ u.top ∧
      ((∀ n, e ≠ .remove n) → s.top + s.vis ≤ s.count → 0 < s.vis → (u.top = s.top ∧ u.count = s.count ∧ u.maxRows = s.maxRows) ∨ u.index = -1) := by
  obtain ⟨⟨g1, g2, g3, g4, g5⟩, gm⟩ := hg
  unfold Small at hs
  cases e with
  | resize => exact .inr ⟨{ s with ignore := false }, rfl, g1, g2, g3, fun _ _ _ => .inl ⟨rfl, rfl, rfl⟩⟩
  | fresh n =>
    unfold step
    simp only []
    by_cases h : s.index ≥ 0
    · rw [if_pos h]
      exact .inr ⟨s, rfl, g1, g2, g3, fun _ _ _ => .inl ⟨rfl, rfl, rfl⟩⟩
    · rw [if_neg h]
      refine .inr ⟨_, rfl, ?_, ?_, g3, fun _ _ _ => .inr rfl⟩
      · show (-1 : Int) ≤ -1
        omega
      · show (-1 : Int) < n
        omega
  | remove n =>
    unfold step
    simp only []
    by_cases h : s.index < 0
    · rw [if_pos h]
      exact .inl ⟨rfl, rfl, rfl, rfl, rfl⟩
    · rw [if_neg h]
      refine .inr ⟨_, rfl, ?_, ?_, g3, fun hh => absurd rfl (hh n)⟩
      · show -1 ≤ if s.index ≥ n then (n : Int) - 1 else s.index
        split <;> omega
      · show (if s.index ≥ n then (n : Int) - 1 else s.index) < n
        split <;> omega
  | up =>
    unfold step
    simp only []
    by_cases hv : s.vis ≤ 0
    · rw [if_pos hv]
      exact .inl ⟨rfl, rfl, rfl, rfl, rfl⟩
    · rw [if_neg hv]
      have := (g5 (by omega)).1
      refine .inr ⟨_, rfl, ?_, ?_, g3, fun _ _ _ => .inl ⟨rfl, rfl, rfl⟩⟩
      · show -1 ≤ if c.wrap then (if s.index - 1 < -1 then s.count - 1 else s.index - 1) else if s.index ≥ 0 then s.index - 1 else s.index
        split <;> split <;> omega
      · show (if c.wrap then (if s.index - 1 < -1 then s.count - 1 else s.index - 1) else if s.index ≥ 0 then s.index - 1 else s.index) < s.count
        split <;> split <;> omega
  | down =>
    unfold step
    simp only []
    by_cases hv : s.vis ≤ 0
    · rw [if_pos hv]
      exact .inl ⟨rfl, rfl, rfl, rfl, rfl⟩
    · rw [if_neg hv]
      have := (g5 (by omega)).1
      refine .inr ⟨_, rfl, ?_, ?_, g3, fun _ _ _ => .inl ⟨rfl, rfl, rfl⟩⟩
      · show -1 ≤ if s.index + 1 ≥ s.count then (if c.wrap then -1 else s.count - 1) else s.index + 1
        split
        · split <;> omega
        · omega
      · show (if s.index + 1 ≥ s.count then (if c.wrap then -1 else s.count - 1) else s.index + 1) < s.count
        split
        · split <;> omega
        · omega
  | pgup =>
    unfold step
    simp only []
    by_cases hv : s.vis ≤ 0
    · rw [if_pos hv]
      exact .inl ⟨rfl, rfl, rfl, rfl, rfl⟩
    · rw [if_neg hv]
      by_cases h : s.index > 0
      · rw [if_pos h]
        have := pgUp_spec c { s with ignore := false } ⟨g1, g2, g3, g4, g5⟩ (by show 0 < s.vis; omega) h
        refine .inr ⟨_, rfl, ?_, ?_, g3, fun _ _ _ => .inl ⟨rfl, rfl, rfl⟩⟩
        · have := this.1
          show -1 ≤ pgUp c { s with ignore := false }
          omega
        · have : pgUp c { s with ignore := false } < s.index := this.2.1
          show pgUp c { s with ignore := false } < s.count
          omega
      · rw [if_neg h]
        exact .inl ⟨rfl, rfl, rfl, rfl, rfl⟩
  | pgdn =>
    unfold step
    simp only []
    by_cases hv : s.vis ≤ 0
    · rw [if_pos hv]
      exact .inl ⟨rfl, rfl, rfl, rfl, rfl⟩
    · rw [if_neg hv]
      by_cases h : 0 ≤ s.index ∧ s.index < s.count - 1
      · rw [if_pos h]
        have := pgDn_spec c { s with ignore := false } ⟨g1, g2, g3, g4, g5⟩ (by show 0 < s.vis; omega) h.1 h.2
        refine .inr ⟨_, rfl, ?_, this.2.1, g3, fun _ _ _ => .inl ⟨rfl, rfl, rfl⟩⟩
        have := this.1
        show -1 ≤ pgDn c { s with ignore := false }
        omega
      · rw [if_neg h]
        exact .inl ⟨rfl, rfl, rfl, rfl, rfl⟩
  | wheelUp n =>
    unfold step
    simp only []
    by_cases hv : s.vis ≤ 0
    · rw [if_pos hv]
      exact .inl ⟨rfl, rfl, rfl, rfl, rfl⟩
    · rw [if_neg hv]
      by_cases h : s.index - uMin s.index n ≠ s.index
      · rw [if_pos h]
        have hi : 0 ≤ s.index := by
          rcases Int.lt_or_le s.index 0 with hh | hh
          · exfalso
            have e1 : s.index = -1 := by omega
            have e2 : n = 0 := by
              cases n with
              | zero => rfl
              | succ n => exact absurd ⟨e1, by omega⟩ ht
            apply h
            rw [e1, e2]
            decide
          · exact hh
        have hu := uMin_pos s.index n hi (by omega)
        refine .inr ⟨_, rfl, ?_, ?_, g3, fun _ _ _ => .inl ⟨rfl, rfl, rfl⟩⟩
        · show -1 ≤ s.index - uMin s.index n
          omega
        · show s.index - uMin s.index n < s.count
          omega
      · rw [if_neg h]
        exact .inl ⟨rfl, rfl, rfl, rfl, rfl⟩
  | wheelDown n =>
    unfold step
    simp only []
    by_cases hv : s.vis ≤ 0
    · rw [if_pos hv]
      exact .inl ⟨rfl, rfl, rfl, rfl, rfl⟩
    · rw [if_neg hv]
      have hu := uMin_pos (s.count - 1 - s.index) n (by omega) (by omega)
      by_cases h : s.index + uMin (s.count - 1 - s.index) n ≠ s.index
      · rw [if_pos h]
        refine .inr ⟨_, rfl, ?_, ?_, g3, fun _ _ _ => .inl ⟨rfl, rfl, rfl⟩⟩
        · show -1 ≤ s.index + uMin (s.count - 1 - s.index) n
          omega
        · show s.index + uMin (s.count - 1 - s.index) n < s.count
          omega
      · rw [if_neg h]
        exact .inl ⟨rfl, rfl, rfl, rfl, rfl⟩
  | click row =>
    unfold step
    simp only []
    by_cases hv : s.vis ≤ 0
    · rw [if_pos hv]
      exact .inl ⟨rfl, rfl, rfl, rfl, rfl⟩
    · rw [if_neg hv]
      have := (g5 (by omega)).1
      by_cases h : (row : Int) < min s.vis s.count
      · rw [if_pos h]
        by_cases h2 : row + s.top ≥ s.count
        · rw [if_pos h2]
          refine .inr ⟨_, rfl, ?_, ?_, ?_, fun _ hf _ => by omega⟩
          · show -1 ≤ s.count - 1
            omega
          · show s.count - 1 < s.count
            omega
          · show 0 ≤ max s.top (s.count - (min s.vis s.count - 1))
            omega
        · rw [if_neg h2]
          refine .inr ⟨_, rfl, ?_, ?_, g3, fun _ _ _ => .inl ⟨rfl, rfl, rfl⟩⟩
          · show -1 ≤ (row : Int) + s.top
            omega
          · show (row : Int) + s.top < s.count
            omega
      · rw [if_neg h]
        exact .inl ⟨rfl, rfl, rfl, rfl, rfl⟩

theorem nav_index (c : Cfg) (avail : Int) (draws : Bool) (s : S) : (navigated c avail draws s).index = s.index := by
  unfold navigated display
  split
  · rfl
  · split
    · rw [(updateTop_same c _).1]
      rfl
    · rfl

theorem init_inv (count : Nat) (avail : Int) : Inv (layout avail { count := count, vis := 0, maxRows := 0 }) := by
  obtain ⟨l1, l2, l3, l4, l5, l6, l7, -, -⟩ := layout_spec avail { count := count, vis := 0, maxRows := 0 }
  simp only [] at l1 l2 l3 l7
  exact ⟨⟨by omega, by omega, by omega, l6, fun _ => ⟨by omega, fun h => by omega, fun _ => l2⟩⟩, l5⟩

theorem step_inv (c : Cfg) (avail : Int) (draws : Bool) (s : S) (e : Ev) (hg : Inv s) (hs : Small s) (ht : ¬ Trouble s e)
    (hr : ∀ n, e = .remove n → (n : Int) ≤ s.count) : Inv (step c avail draws s e) := by
  rcases step_nav c avail draws s e hg hs ht hr with ⟨h1, h2, h3, h4, h5⟩ | ⟨u, h1, h2, h3, h4, -⟩
  · unfold Inv Good
    rw [h1, h2, h3, h4, h5]
    exact hg
  · rw [h1]
    exact (navigated_spec c avail draws u h2 h3 h4).1

theorem reach_inv (c : Cfg) (s : S) (h : Reach c s) : Inv s ∧ Small s := by
  induction h with
  | init count avail hc => exact ⟨init_inv count avail, by show (count : Int) < _; omega⟩
  | step s avail draws e _ ht hr hs ih => exact ⟨step_inv c avail draws s e ih.1 ih.2 ht hr, hs⟩

/-- Whatever is done, the selected suggestion exists and is on one of the rows. -/
theorem C73_selected (c : Cfg) (s : S) (h : Reach c s) : Good s := (reach_inv c s h).1.1

/-- The list never has an empty row, unless suggestions are removed or it has no room. -/
theorem C73_full (c : Cfg) (s : S) (h : Calm c s) : Full s := by
  have key : Inv s ∧ Small s ∧ Full s := by
    induction h with
    | init count avail hc hv =>
      have hi := init_inv count avail
      have := (hi.1.2.2.2.2 hv).1
      exact ⟨hi, by show (count : Int) < _; omega, hv, by show (0 : Int) + _ ≤ _; omega⟩
    | step s avail draws e _ ht hr hs hv ih =>
      obtain ⟨i1, i2, i3, i4⟩ := ih
      refine ⟨step_inv c avail draws s e i1 i2 ht (fun n hn => absurd hn (hr n)), hs, hv, ?_⟩
      rcases step_nav c avail draws s e i1 i2 ht (fun n hn => absurd hn (hr n)) with ⟨h1, h2, h3, h4, h5⟩ | ⟨u, h1, h2, h3, h4, h5⟩
      · omega
      · obtain ⟨-, n1, n2, n3, n4, -, -⟩ := navigated_spec c avail draws u h2 h3 h4
        rw [h1] at hv ⊢
        rw [n2]
        refine n4 hv ?_
        rcases h5 hr i4 i3 with ⟨k1, k2, k3⟩ | k
        · refine .inl ?_
          have := (layout_spec avail u).2.2.2.2.2.2.2.2 (by have := i1.2; omega)
          have := i1.2
          omega
        · exact .inr k
  exact key.2.2

/-- The arrow keys, the wheel and a click select what they should. -/
theorem C73_moves (c : Cfg) (avail : Int) (draws : Bool) (s : S) (e : Ev) (i : Int) (h : Reach c s) (hv : 0 < s.vis) (he : target c.wrap s e = some i)
    (hw : ∀ n, e = .wheelUp n → 0 ≤ s.index) (hc : ∀ r, e = .click r → (r : Int) < s.vis ∧ Full s) : (step c avail draws s e).index = i := by
  obtain ⟨⟨⟨g1, g2, g3, g4, g5⟩, gm⟩, hs⟩ := reach_inv c s h
  unfold Small at hs
  have v1 := (g5 hv).1
  have hn : ¬ s.vis ≤ 0 := by omega
  cases e with
  | up =>
    simp only [target, Option.some.injEq] at he
    subst he
    unfold step
    simp only []
    rw [if_neg hn, nav_index]
    simp only []
    cases c.wrap with
    | true =>
      simp only [if_true]
      split <;> split <;> omega
    | false =>
      simp only [Bool.false_eq_true, if_false]
      split <;> omega
  | down =>
    simp only [target, Option.some.injEq] at he
    subst he
    unfold step
    simp only []
    rw [if_neg hn, nav_index]
    simp only []
    cases c.wrap with
    | true =>
      simp only [if_true]
      split <;> split <;> omega
    | false =>
      simp only [Bool.false_eq_true, if_false]
      split <;> split <;> omega
  | wheelUp n =>
    simp only [target, Option.some.injEq] at he
    subst he
    have hi := hw n rfl
    have hu := uMin_pos s.index n hi (by omega)
    unfold step
    simp only []
    rw [if_neg hn]
    split
    · rw [nav_index]
      simp only []
      omega
    · simp only []
      omega
  | wheelDown n =>
    simp only [target, Option.some.injEq] at he
    subst he
    have hu := uMin_pos (s.count - 1 - s.index) n (by omega) (by omega)
    unfold step
    simp only []
    rw [if_neg hn]
    split
    · rw [nav_index]
      simp only []
      omega
    · simp only []
      omega
  | click r =>
    simp only [target, Option.some.injEq] at he
    subst he
    obtain ⟨k1, -, k2⟩ := hc r rfl
    unfold step
    simp only []
    rw [if_neg hn, if_pos (by omega), if_neg (by omega), nav_index]
    simp only []
    omega
  | pgup => cases he
  | pgdn => cases he
  | resize => cases he
  | fresh n => cases he
  | remove n => cases he

/-- PgUp goes up, not beyond the first, and by at most a page. -/
theorem C73_pgup (c : Cfg) (avail : Int) (draws : Bool) (s : S) (h : Reach c s) (hv : 0 < s.vis) (hi : 0 < s.index) :
    0 ≤ (step c avail draws s .pgup).index ∧ (step c avail draws s .pgup).index < s.index ∧ s.index ≤ (step c avail draws s .pgup).index + s.vis := by
  have g := (reach_inv c s h).1.1
  have := pgUp_spec c { s with ignore := false } g hv hi
  unfold step
  simp only []
  rw [if_neg (by omega), if_pos hi, nav_index]
  exact this

/-- PgDn goes down, not beyond the last, and by at most a page, if the selected suggestion is not in the margin at the bottom. -/
theorem C73_pgdn (c : Cfg) (avail : Int) (draws : Bool) (s : S) (h : Reach c s) (hv : 0 < s.vis) (hi : 0 ≤ s.index) (hl : s.index < s.count - 1) :
    0 ≤ (step c avail draws s .pgdn).index ∧ (step c avail draws s .pgdn).index < s.count ∧ (step c avail draws s .pgdn).index ≤ s.index + s.vis ∧
    (s.index < s.top + s.vis - margin c.ofs s.vis → s.index < (step c avail draws s .pgdn).index) := by
  have g := (reach_inv c s h).1.1
  have := pgDn_spec c { s with ignore := false } g hv hi hl
  have hm := scrollOfs_margin c { s with ignore := false } hv
  unfold step
  simp only []
  rw [if_neg (by omega), if_pos ⟨hi, hl⟩, nav_index]
  rw [hm] at this
  exact this

/-- After a key there are as many suggestions above and below the selected one as the setting says, unless the list ends there. -/
theorem C73_margin (c : Cfg) (avail : Int) (draws : Bool) (s r : S) (e : Ev) (h : Reach c s) (hv : 0 < s.vis)
    (he : e = .up ∨ e = .down ∨ e = .pgup ∧ 0 < s.index ∨ e = .pgdn ∧ 0 ≤ s.index ∧ s.index < s.count - 1) (hr : r = step c avail draws s e)
    (hrv : 0 < r.vis) (hri : 0 ≤ r.index) :
    r.top ≤ max 0 (r.index - margin c.ofs r.vis) ∧ min (r.count - r.vis) (r.index + margin c.ofs r.vis - r.vis + 1) ≤ r.top := by
  have hn : ¬ s.vis ≤ 0 := by omega
  obtain ⟨i1, i2⟩ := reach_inv c s h
  have hst := step_inv c avail draws s e i1 i2
  have fin : ∀ u : S, r = navigated c avail draws u → u.ignore = false → u.top = s.top → -1 ≤ u.index → u.index < u.count →
      r.top ≤ max 0 (r.index - margin c.ofs r.vis) ∧ min (r.count - r.vis) (r.index + margin c.ofs r.vis - r.vis + 1) ≤ r.top := by
    intro u hu a b d f
    obtain ⟨-, n1, n2, -, -, n5, -⟩ := navigated_spec c avail draws u d f (by have := i1.1.2.2.1; omega)
    rw [← hu] at n1 n2 n5
    rw [n1, n2]
    exact n5 hrv a (by omega)
  have gi : ∀ u : S, r = navigated c avail draws u → u.index = r.index := by
    intro u hu
    rw [hu, nav_index]
  have hg : -1 ≤ r.index ∧ r.index < s.count := by
    rcases step_nav c avail draws s e i1 i2 (by rcases he with a | a | ⟨a, -⟩ | ⟨a, -⟩ <;> subst a <;> exact id)
      (by intro n hn; rcases he with a | a | ⟨a, -⟩ | ⟨a, -⟩ <;> subst a <;> cases hn) with ⟨h1, -, h3, -, -⟩ | ⟨u, h1, h2, h3, h4, h5⟩
    · have := i1.1.1
      have := i1.1.2.1
      rw [hr]
      omega
    · have g2 := i1.1.2.1
      have : s.count = s.count := rfl
      clear fin gi
      have hcnt : (step c avail draws s e).index < s.count ∧ -1 ≤ (step c avail draws s e).index := by
        have v1 := (i1.1.2.2.2.2 hv).1
        rcases he with a | a | ⟨a, b⟩ | ⟨a, b, d⟩
        · subst a
          have := C73_moves c avail draws s .up _ h hv rfl (fun n x => by cases x) (fun n x => by cases x)
          rw [this]
          have := i1.1.1
          constructor <;> (split <;> first | omega | (split <;> omega))
        · subst a
          have := C73_moves c avail draws s .down _ h hv rfl (fun n x => by cases x) (fun n x => by cases x)
          rw [this]
          have := i1.1.1
          constructor <;> (split <;> first | omega | (split <;> omega))
        · subst a
          have := C73_pgup c avail draws s h hv b
          omega
        · subst a
          have := C73_pgdn c avail draws s h hv b d
          omega
      rw [hr]
      omega
  rcases he with a | a | ⟨a, b⟩ | ⟨a, b⟩
  · subst a
    unfold step at hr
    simp only [] at hr
    rw [if_neg hn] at hr
    have := gi _ hr
    exact fin _ hr rfl rfl (by omega) (by rw [this]; exact hg.2)
  · subst a
    unfold step at hr
    simp only [] at hr
    rw [if_neg hn] at hr
    have := gi _ hr
    exact fin _ hr rfl rfl (by omega) (by rw [this]; exact hg.2)
  · subst a
    unfold step at hr
    simp only [] at hr
    rw [if_neg hn, if_pos b] at hr
    have := gi _ hr
    exact fin _ hr rfl rfl (by omega) (by rw [this]; exact hg.2)
  · subst a
    unfold step at hr
    simp only [] at hr
    rw [if_neg hn, if_pos b] at hr
    have := gi _ hr
    exact fin _ hr rfl rfl (by omega) (by rw [this]; exact hg.2)

/-- A click does not scroll, so that a double click is on one suggestion. -/
theorem C73_click (c : Cfg) (avail : Int) (draws : Bool) (s : S) (row : Nat) (h : Reach c s) (hf : Full s) (hr : (row : Int) < s.vis)
    (ha : (step c avail draws s (.click row)).vis = s.vis) : (step c avail draws s (.click row)).top = s.top := by
  obtain ⟨⟨⟨g1, g2, g3, g4, g5⟩, gm⟩, hs⟩ := reach_inv c s h
  obtain ⟨hv, f⟩ := hf
  have v1 := (g5 hv).1
  revert ha
  unfold step
  simp only []
  rw [if_neg (by omega), if_pos (by omega), if_neg (by omega)]
  intro ha
  obtain ⟨-, -, -, -, -, -, n7⟩ := navigated_spec c avail draws { s with ignore := true, index := row + s.top } (by show (-1 : Int) ≤ row + s.top; omega)
    (by show (row : Int) + s.top < s.count; omega) g3
  exact n7 (by omega) rfl (by show s.top ≤ row + s.top; omega) (by rw [ha]; show (row : Int) + s.top < s.top + s.vis; omega)

/-! ### Where the code fails -/

/-- A list of 20 with 10 rows. -/
def s0 : S := layout 30 { count := 20, vis := 0, maxRows := 0 }

def run (c : Cfg) (s : S) (es : List (Ev × Int)) : S := es.foldl (fun s e => step c e.2 true s e.1) s

/-- The wheel turned up while the input line is selected: `min<uint32>` of -1 is the number of lines, the index is -2, and Down does not
select the first suggestion. -/
theorem C73_wheel_violated : ¬ Good (run ⟨true, 0⟩ s0 [(.wheelUp 1, 30)]) ∧ (run ⟨true, 0⟩ s0 [(.wheelUp 1, 30)]).index = -2 ∧
    (run ⟨true, 0⟩ s0 [(.wheelUp 1, 30), (.down, 30)]).index = -1 := by
  refine ⟨fun h => ?_, by decide +kernel, by decide +kernel⟩
  have h1 := h.1
  have h2 : (run ⟨true, 0⟩ s0 [(.wheelUp 1, 30)]).index = -2 := by decide +kernel
  omega

/-- With a margin, PgDn near the end goes up. -/
theorem C73_pgdn_violated : (run ⟨true, 3⟩ s0 [(.up, 30), (.up, 30)]).index = 18 ∧ (run ⟨true, 3⟩ s0 [(.up, 30), (.up, 30), (.pgdn, 30)]).index = 16 := by
  decide +kernel

/-- Removing the last suggestion leaves an empty row. -/
theorem C73_remove_violated : (run ⟨true, 0⟩ s0 [(.up, 30), (.remove 19, 30)]).top = 10 ∧ (run ⟨true, 0⟩ s0 [(.up, 30), (.remove 19, 30)]).vis = 10 ∧
    (run ⟨true, 0⟩ s0 [(.up, 30), (.remove 19, 30)]).count = 19 := by
  decide +kernel

/-- Without room the list is hidden; when there is room again it can have empty rows. -/
theorem C73_regrow_violated : (run ⟨true, 0⟩ s0 [(.up, 30), (.resize, 0), (.resize, 30)]).top = 19 ∧
    (run ⟨true, 0⟩ s0 [(.up, 30), (.resize, 0), (.resize, 30)]).vis = 10 ∧ (run ⟨true, 0⟩ s0 [(.up, 30), (.resize, 0), (.resize, 30)]).count = 20 := by
  decide +kernel

/-- If the input line does not fit on the screen, the number of rows becomes negative, and there is no list any more when it fits again. -/
theorem C73_negative_violated : (run ⟨true, 0⟩ s0 [(.resize, -1), (.resize, 30)]).vis = -1 := by decide +kernel

/-! ### Examples -/

theorem s0_reach (c : Cfg) : Reach c s0 := .init 20 30 (by decide)

theorem s0_calm (c : Cfg) : Calm c s0 := .init 20 30 (by decide) (by decide)

/-- Down, PgDn, and a click on the third row. -/
def s3 : S := run ⟨true, 3⟩ s0 [(.down, 30), (.pgdn, 30), (.click 2, 30)]

theorem s3_reach : Reach ⟨true, 3⟩ s3 :=
  .step _ 30 true (.click 2) (.step _ 30 true .pgdn (.step _ 30 true .down (s0_reach _) id (fun n h => by cases h) (by decide)) id (fun n h => by cases h) (by decide))
    id (fun n h => by cases h) (by decide)

theorem s3_calm : Calm ⟨true, 3⟩ s3 :=
  .step _ 30 true (.click 2) (.step _ 30 true .pgdn (.step _ 30 true .down (s0_calm _) id (fun n h => by cases h) (by decide) (by decide)) id
    (fun n h => by cases h) (by decide) (by decide)) id (fun n h => by cases h) (by decide) (by decide)

example : s3.index = 2 ∧ s3.top = 0 ∧ s3.ignore = true := by decide +kernel

example : Good s3 ∧ Full s3 := ⟨C73_selected _ s3 s3_reach, C73_full _ s3 s3_calm⟩

/-- Five lines down with the wheel. -/
example : (step ⟨true, 3⟩ 30 true s3 (.wheelDown 5)).index = 7 :=
  C73_moves ⟨true, 3⟩ 30 true s3 (.wheelDown 5) 7 s3_reach (by decide) (by decide) (fun n h => by cases h) (fun n h => by cases h)

example : (step ⟨true, 3⟩ 30 true s3 (.click 9)).index = 9 ∧ (step ⟨true, 3⟩ 30 true s3 (.click 9)).top = 0 :=
  ⟨C73_moves ⟨true, 3⟩ 30 true s3 (.click 9) 9 s3_reach (by decide) (by decide) (fun n h => by cases h)
    (fun r h => by cases h; exact ⟨by decide, C73_full _ s3 s3_calm⟩),
   C73_click ⟨true, 3⟩ 30 true s3 9 s3_reach (C73_full _ s3 s3_calm) (by decide) (by decide)⟩

example : 0 ≤ (step ⟨true, 3⟩ 30 true s3 .pgup).index := (C73_pgup ⟨true, 3⟩ 30 true s3 s3_reach (by decide) (by decide)).1

example : s3.index < (step ⟨true, 3⟩ 30 true s3 .pgdn).index :=
  (C73_pgdn ⟨true, 3⟩ 30 true s3 s3_reach (by decide) (by decide) (by decide)).2.2.2 (by decide)

example : (step ⟨true, 3⟩ 30 true s3 .pgdn).index = 6 := by decide +kernel

example : (step ⟨true, 3⟩ 30 true s3 .pgdn).top ≤ 3 :=
  (C73_margin ⟨true, 3⟩ 30 true s3 _ .pgdn s3_reach (by decide) (.inr (.inr (.inr ⟨rfl, by decide, by decide⟩))) rfl (by decide) (by decide)).1

end Clink.SuggList
