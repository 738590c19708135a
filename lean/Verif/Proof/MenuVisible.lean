import Verif.Proof.MenuDraw

/-!
The selected match is on the screen.
-/

namespace Clink.Menu
open Spec

/-- What painting does not change. -/
structure SameView (s s' : St) : Prop where
  top : s'.top = s.top
  displayed : s'.displayedRows = s.displayedRows
  expanded : s'.expanded = s.expanded
  car : s'.scrollCar = s.scrollCar
  column : s'.scrollColumn = s.scrollColumn

theorem SameView.refl (s : St) : SameView s s := by constructor <;> rfl

theorem SameView.trans {a b c : St} (h : SameView a b) (k : SameView b c) : SameView a c := by
  obtain ⟨h1, h2, h3, h4, h5⟩ := h
  obtain ⟨k1, k2, k3, k4, k5⟩ := k
  constructor <;> simp [*]

theorem view_paint (g : Cfg) (n row : Nat) (s : St) : SameView s (paint g n row s) := by
  induction n generalizing row s with
  | zero => exact .refl _
  | succ n ih =>
    rw [paint]
    split
    · exact .refl _
    · refine SameView.trans ?_ (ih _ _)
      unfold paintRow clearAt
      split <;> split <;> constructor <;> rfl

theorem view_comment (g : Cfg) (s : St) : SameView s (comment g s) := by
  unfold comment; dsimp only
  split
  · split
    · exact .refl _
    · constructor <;> rfl
  · exact .refl _

/-- What is shown by `update_display`. -/
theorem view_updateDisplay (g : Cfg) (s : St) (hv : 0 < s.visibleRows) :
    (updateDisplay g s).top = (drawBase g s).top ∧ (updateDisplay g s).displayedRows = (drawBase g s).displayedRows ∧
      (updateDisplay g s).expanded = (drawBase g s).expanded ∧
      (updateDisplay g s).scrollCar = (drawCar g (drawBase g s)).scrollCar ∧
      (updateDisplay g s).scrollColumn = (drawCar g (drawBase g s)).scrollColumn := by
  unfold updateDisplay
  rw [if_neg (by omega)]
  dsimp only
  have h := (view_paint g (drawCar g (drawBase g s)).displayedRows.toNat 0 (drawCar g (drawBase g s))).trans (view_comment g _)
  obtain ⟨h1, h2, h3, h4, h5⟩ := h
  exact ⟨h1, h2, h3, h4, h5⟩

theorem expand_top (g : Cfg) (s : St) : (expand g s).top = s.top ∧ (expand g s).clearDisplay = s.clearDisplay ∧
    (expand g s).screen = s.screen ∧ (expand g s).displayedRows = s.displayedRows := by
  unfold expand
  repeat' split
  all_goals exact ⟨rfl, rfl, rfl, rfl⟩

/-- When the list stays a preview. -/
theorem not_expand {g : Cfg} {s : St} (h0 : 0 ≤ s.index) (h : (expand g s).expanded = false) :
    s.expanded = false ∧ 0 < g.preview ∧ g.preview + 1 < s.visibleRows ∧ rowOf g s s.index < g.preview := by
  unfold expand at h
  split at h
  · rename_i h1; rw [h1] at h; cases h
  · rename_i h1
    split at h
    · cases h
    · rename_i h2
      split at h
      · cases h
      · rename_i h3
        exact ⟨by simpa using h1, by omega, by omega, by omega⟩

theorem scrollOfs_range (g : Cfg) (s : St) (h : 1 ≤ s.displayedRows) :
    0 ≤ scrollOfs g s ∧ 2 * scrollOfs g s ≤ s.displayedRows - 1 := by
  unfold scrollOfs
  rw [Int.tdiv_eq_ediv_of_nonneg (by omega)]
  split <;> omega

/-- The top row after `topFit`. -/
theorem topFit_top {g : Cfg} {s : St} (h0 : 0 ≤ s.top) (hy : 0 ≤ rowOf g s s.index) (hr : 1 ≤ min s.matchRows s.visibleRows) :
    0 ≤ (topFit g s).top ∧ (topFit g s).top ≤ rowOf g s s.index ∧
      rowOf g s s.index - (min s.matchRows s.visibleRows - 1) ≤ (topFit g s).top ∧
      ((topFit g s).top = s.top ∨ (topFit g s).top < s.top ∨
        (topFit g s).top = rowOf g s s.index - (min s.matchRows s.visibleRows - 1)) ∧
      (s.top ≤ rowOf g s s.index → rowOf g s s.index - (min s.matchRows s.visibleRows - 1) ≤ s.top → topFit g s = s) := by
  unfold topFit
  dsimp only
  split
  · rw [setTop_top]; exact ⟨by omega, by omega, by omega, by omega, by omega⟩
  · split
    · rw [setTop_top]; exact ⟨by omega, by omega, by omega, by omega, by omega⟩
    · exact ⟨by omega, by omega, by omega, by omega, fun _ _ => rfl⟩

/-- The top row after `topOfs`. -/
theorem topOfs_top {g : Cfg} {s : St} {n : Int} (h0 : 0 ≤ s.top) (h1 : s.top ≤ rowOf g s s.index) (h2 : rowOf g s s.index < s.top + n)
    (hd : 1 ≤ s.displayedRows) (hn : s.displayedRows ≤ n) :
    0 ≤ (topOfs g s).top ∧ (topOfs g s).top ≤ rowOf g s s.index ∧ rowOf g s s.index < (topOfs g s).top + n ∧
      (topOfs g s).top ≤ max s.top (s.matchRows - s.visibleRows) := by
  have ho := scrollOfs_range g s hd
  unfold topOfs
  dsimp only
  split
  · split
    · rw [setTop_top]; exact ⟨by omega, by omega, by omega, by omega⟩
    · split
      · rw [setTop_top]; exact ⟨by omega, by omega, by omega, by omega⟩
      · exact ⟨by omega, by omega, by omega, by omega⟩
  · exact ⟨by omega, by omega, by omega, by omega⟩

theorem topOfs_preview {g : Cfg} {s : St} (h : s.expanded = false) : topOfs g s = s := by
  unfold topOfs
  rw [if_neg (by simp [h])]

/-- The rows that are shown. -/
theorem rowsFor_range {g : Cfg} {s : St} (h : GridOk g s) (hv : 2 ≤ s.visibleRows) (h0 : 0 ≤ s.index) :
    let e := expand g s
    1 ≤ rowsFor g e ∧ rowsFor g e ≤ min s.visibleRows s.matchRows ∧
      (e.expanded = true → rowsFor g e = min s.visibleRows s.matchRows) ∧
      (showMore g e = false → rowsFor g e = min s.visibleRows s.matchRows) := by
  dsimp only
  have hc := core_expand g s
  have hr := rows_le_count h
  unfold rowsFor
  rw [hc.visible, hc.rows]
  by_cases hm : showMore g (expand g s) = true
  · rw [if_pos hm]
    unfold showMore at hm
    simp only [Bool.and_eq_true, Bool.not_eq_true', decide_eq_true_eq] at hm
    obtain ⟨he, hm⟩ := hm
    rw [hc.rows] at hm
    obtain ⟨_, p1, p2, _⟩ := not_expand h0 he
    refine ⟨by omega, by omega, fun h => ?_, fun h => ?_⟩
    · rw [he] at h; cases h
    · unfold showMore at h; rw [he, hc.rows] at h
      simp only [Bool.not_false, Bool.true_and, decide_eq_false_iff_not] at h
      omega
  · rw [if_neg hm]
    exact ⟨by omega, by omega, fun _ => by omega, fun _ => by omega⟩

/-- Where the list is after it has been drawn. -/
theorem drawBase_visible {g : Cfg} {s : St} (h : GridOk g s) (hv : 2 ≤ s.visibleRows) (h0 : 0 ≤ s.index) (h1 : s.index < s.count)
    (ht : 0 ≤ s.top) :
    0 ≤ (drawBase g s).top ∧ (drawBase g s).top ≤ rowOf g s s.index ∧
      rowOf g s s.index < (drawBase g s).top + (drawBase g s).displayedRows ∧ 1 ≤ (drawBase g s).displayedRows ∧
      (drawBase g s).displayedRows ≤ min s.visibleRows s.matchRows ∧
      (s.top ≤ max 0 (s.matchRows - s.visibleRows) → (drawBase g s).top ≤ max 0 (s.matchRows - s.visibleRows)) := by
  generalize hs' : ({ s with scrollCar := false, scrollColumn := 0 } : St) = s'
  have hcs : SameCore s s' := by subst hs'; constructor <;> rfl
  have hts : s'.top = s.top := by subst hs'; rfl
  have h' := hcs.gridOk h
  have hce := core_expand g s'
  generalize he : expand g s' = e at hce
  have hrr := rowsFor_range h' (by rw [hcs.visible]; exact hv) (by rw [hcs.index]; exact h0)
  dsimp only at hrr
  rw [he] at hrr
  have hte : e.top = s.top := by rw [← he, (expand_top g s').1, hts]
  generalize hd : ({ e with displayedRows := rowsFor g e } : St) = d
  have hb : drawBase g s = updateTop g d := by
    unfold drawBase; dsimp only; rw [hs', he, hd]
  have hcd : SameCore s d := hcs.trans (hce.trans (by subst hd; constructor <;> rfl))
  have hdt : d.top = s.top := by subst hd; exact hte
  have hdd : d.displayedRows = rowsFor g e := by subst hd; rfl
  have hde : d.expanded = e.expanded := by subst hd; rfl
  rw [hcs.visible, hcs.rows] at hrr
  obtain ⟨r1, r2, r3, r4⟩ := hrr
  have hrow := rowOf_range h h0 h1
  have hrc := rows_le_count h
  have hrd : rowOf g d d.index = rowOf g s s.index := by rw [hcd.index, hcd.rowOf]
  have hmd : min d.matchRows d.visibleRows = min s.visibleRows s.matchRows := by rw [hcd.rows, hcd.visible]; omega
  obtain ⟨t1, t2, t3, t4, t5⟩ := topFit_top (g := g) (s := d) (by omega) (by omega) (by omega)
  have hcf := core_topFit g d
  have hdf : (topFit g d).displayedRows = d.displayedRows := by
    have := updateTop_displayed g d
    unfold topFit; dsimp only; split
    · exact setTop_displayed _ _
    · split
      · exact setTop_displayed _ _
      · rfl
  have hef : (topFit g d).expanded = d.expanded := by
    unfold topFit; dsimp only; split
    · exact setTop_expanded _ _
    · split
      · exact setTop_expanded _ _
      · rfl
  have hrf : rowOf g (topFit g d) (topFit g d).index = rowOf g s s.index := by rw [hcf.index, hcf.rowOf, hrd]
  rw [hb, updateTop_displayed]
  by_cases hex : e.expanded = true
  · have hn := r3 hex
    have := topOfs_top (g := g) (s := topFit g d) (n := rowsFor g e) (by omega) (by omega) (by omega) (by omega) (by omega)
    rw [hrf, hcf.rows, hcf.visible, hcd.rows, hcd.visible] at this
    obtain ⟨a1, a2, a3, a4⟩ := this
    unfold updateTop
    exact ⟨by omega, by omega, by omega, by omega, by omega, by omega⟩
  · have hex : e.expanded = false := by simpa using hex
    have hne := not_expand (g := g) (s := s') (by rw [hcs.index]; exact h0) (by rw [he]; exact hex)
    rw [hcs.visible, hcs.index, hcs.rowOf] at hne
    obtain ⟨_, n1, n2, n3⟩ := hne
    have hlt : rowOf g s s.index < rowsFor g e := by
      by_cases hm : showMore g e = true
      · unfold rowsFor; rw [if_pos hm, (hcs.trans hce).visible]; omega
      · rw [r4 (by simpa using hm)]; omega
    unfold updateTop
    rw [topOfs_preview (by rw [hef, hde]; exact hex)]
    exact ⟨by omega, by omega, by omega, by omega, by omega, by omega⟩

end Clink.Menu
