import Verif.Proof.MenuScreen

/-!
The screen after every step.
-/

namespace Clink.Menu
open Spec

theorem rowsFor_lt {g : Cfg} {s : St} : showMore g s = true ∨ s.visibleRows < s.matchRows ↔ rowsFor g s < s.matchRows := by
  unfold rowsFor
  split
  · rename_i h
    have h' := h
    unfold showMore at h'
    simp only [Bool.and_eq_true, Bool.not_eq_true', decide_eq_true_eq] at h'
    exact ⟨fun _ => by omega, fun _ => Or.inl h⟩
  · rename_i h
    exact ⟨fun x => x.elim (fun y => absurd y h) (fun y => by omega), fun x => Or.inr (by omega)⟩

theorem rowsFor_expanded {g : Cfg} {s : St} (h : s.expanded = true) : rowsFor g s = min s.visibleRows s.matchRows := by
  unfold rowsFor showMore
  rw [if_neg (by simp [h])]

theorem rowsFor_le {g : Cfg} {s : St} : rowsFor g s ≤ min s.visibleRows s.matchRows := by
  unfold rowsFor
  split
  · rename_i h'
    unfold showMore at h'
    simp only [Bool.and_eq_true, Bool.not_eq_true', decide_eq_true_eq] at h'
    omega
  · omega

theorem rowsFor_same {g : Cfg} {s s' : St} (h : SameCore s s') (he : s'.expanded = s.expanded) : rowsFor g s' = rowsFor g s := by
  unfold rowsFor showMore; rw [h.visible, h.rows, he]

theorem stage_setTop {g : Cfg} {s : St} {n : Nat} (h : Stage g s n) (t : Int) : Stage g (setTop s t) n := by
  unfold setTop
  split
  · rcases h with h | ⟨h1, h2, h3⟩ | ⟨sel, top, n0, p, q, u, v, w⟩
    · exact Or.inl h
    · exact Or.inr (Or.inl ⟨(by decide : (-1 : Int) < 0), rfl, h3⟩)
    · exact Or.inr (Or.inr ⟨sel, top, n0, p, q, Or.inl (by decide : (-1 : Int) < 0), (fun x => by cases x), w⟩)
  · exact h

/-- More rows are drawn, and all of them. -/
theorem stage_more {g : Cfg} {s s' : St} {n m : Nat} (h : Stage g s n) (hm : n ≤ m) (hp : s'.prevDisplayed < 0)
    (hc : s'.commentDisplayed = false) (hg : gridOf g s' = gridOf g s) (hs : s'.screen = s.screen) (hd : s'.clearDisplay = s.clearDisplay) :
    Stage g s' m := by
  rcases h with h | ⟨h1, h2, h3⟩ | ⟨sel, top, n0, p, q, u, v, w⟩
  · exact Or.inl (by rw [hd]; exact h)
  · exact Or.inr (Or.inl ⟨hp, hc, by rw [hs]; exact h3⟩)
  · exact Or.inr (Or.inr ⟨sel, top, n0, by rw [hg, hs]; exact p, q, Or.inl hp, by rw [hc]; exact (fun x => by cases x), by omega⟩)

theorem expand_cases (g : Cfg) (s : St) : expand g s = s ∨
    expand g s = { s with expanded := true, prevDisplayed := -1, commentDisplayed := false } := by
  unfold expand
  split
  · exact Or.inl rfl
  · split
    · exact Or.inr rfl
    · split
      · split
        · exact Or.inr rfl
        · exact Or.inl rfl
      · exact Or.inl rfl

theorem stage_expand {g : Cfg} {s : St} (h : Stage g s (rowsFor g s).toNat) :
    Stage g (expand g s) (rowsFor g (expand g s)).toNat := by
  rcases expand_cases g s with e | e
  · rw [e]; exact h
  · rw [e]
    refine stage_more h ?_ (by decide : (-1 : Int) < 0) rfl rfl rfl rfl
    have := rowsFor_expanded (g := g) (s := { s with expanded := true, prevDisplayed := -1, commentDisplayed := false }) rfl
    rw [this]
    have := rowsFor_le (g := g) (s := s)
    dsimp only
    omega

theorem stage_updateTop {g : Cfg} {s : St} {n : Nat} (h : Stage g s n) : Stage g (updateTop g s) n := by
  have h1 : Stage g (topFit g s) n := by
    unfold topFit; dsimp only
    split
    · exact stage_setTop h _
    · split
      · exact stage_setTop h _
      · exact h
  unfold updateTop topOfs
  dsimp only
  split
  · split
    · exact stage_setTop h1 _
    · split
      · exact stage_setTop h1 _
      · exact h1
  · exact h1

/-- What must hold before the list is drawn. -/
structure Pre (g : Cfg) (s : St) : Prop where
  top : s.top ≤ max 0 (s.matchRows - s.visibleRows)
  stage : Stage g s (rowsFor g s).toNat

/-- The list has been drawn. -/
structure Pict (g : Cfg) (s : St) : Prop where
  pic : Picture (gridOf g s) s.index s.top s.displayedRows.toNat s.screen
  disp : s.displayedRows = rowsFor g s
  top : s.top ≤ max 0 (s.matchRows - s.visibleRows)
  prev : s.prevDisplayed = s.index
  any : s.anyDisplayed = true
  clear : s.clearDisplay = false

theorem Pict.pre {g : Cfg} {s : St} (h : Pict g s) (h0 : 0 ≤ s.index) : Pre g s := by
  refine ⟨h.top, Or.inr (Or.inr ⟨s.index, s.top, s.displayedRows.toNat, h.pic, h0, Or.inr ⟨h.prev, rfl, by rw [h.disp]⟩,
    fun _ => ⟨rfl, by rw [h.disp]⟩, by rw [h.disp]; exact Nat.le_refl _⟩)⟩

theorem Pre.setTop {g : Cfg} {s : St} (h : Pre g s) {t : Int} (ht : t ≤ max 0 (s.matchRows - s.visibleRows)) : Pre g (setTop s t) := by
  have hc := core_setTop s t
  refine ⟨by rw [setTop_top, hc.rows, hc.visible]; exact ht, ?_⟩
  rw [rowsFor_same hc (setTop_expanded _ _)]
  exact stage_setTop h.stage t

theorem drawBase_stage {g : Cfg} {s : St} (h : Stage g s (rowsFor g s).toNat) :
    Stage g (drawBase g s) (drawBase g s).displayedRows.toNat ∧ (drawBase g s).displayedRows = rowsFor g (drawBase g s) := by
  have h1 : Stage g { s with scrollCar := false, scrollColumn := 0 } (rowsFor g { s with scrollCar := false, scrollColumn := 0 }).toNat := h
  have h2 := stage_expand h1
  generalize he : expand g { s with scrollCar := false, scrollColumn := 0 } = e at h2
  have h3 : Stage g { e with displayedRows := rowsFor g e } (rowsFor g e).toNat := h2
  have h4 := stage_updateTop h3
  have hb : drawBase g s = updateTop g { e with displayedRows := rowsFor g e } := by
    unfold drawBase; rw [he]
  have hd := updateTop_displayed g { e with displayedRows := rowsFor g e }
  rw [hb, hd]
  refine ⟨h4, ?_⟩
  rw [rowsFor_same (core_updateTop g _) (updateTop_expanded g _)]
  rfl

theorem drawBase_more {g : Cfg} {s : St} (h0 : 0 ≤ s.index) (he : (drawBase g s).expanded = false)
    (hr : (drawBase g s).displayedRows < (drawBase g s).matchRows) : showMore g (drawBase g s) = true := by
  generalize hs' : ({ s with scrollCar := false, scrollColumn := 0 } : St) = s'
  have hcs : SameCore s s' := by subst hs'; constructor <;> rfl
  have hce := core_expand g s'
  have hb : drawBase g s = updateTop g { expand g s' with displayedRows := rowsFor g (expand g s') } := by
    unfold drawBase; rw [hs']
  have hcu := core_updateTop g { expand g s' with displayedRows := rowsFor g (expand g s') }
  rw [hb] at he hr ⊢
  rw [updateTop_expanded] at he
  rw [updateTop_displayed, hcu.rows] at hr
  have hn := not_expand (g := g) (s := s') (by rw [hcs.index]; exact h0) he
  have hlt := (rowsFor_lt (g := g) (s := expand g s')).2 hr
  have hr' : rowsFor g (expand g s') < (expand g s').matchRows := hr
  have : showMore g (expand g s') = true := by
    rcases hlt with h | h
    · exact h
    · unfold showMore
      have he' : (expand g s').expanded = false := he
      rw [he']
      simp only [Bool.not_false, Bool.true_and, decide_eq_true_eq]
      rw [hce.visible] at h
      omega
  unfold showMore at this ⊢
  rw [updateTop_expanded, hcu.rows]
  exact this

/-- Drawing. -/
theorem Pre.display {g : Cfg} {s : St} (h : Pre g s) (hg : GridOk g s) (h0 : 0 ≤ s.index) (h1 : s.index < s.count) (ht : 0 ≤ s.top)
    (hv : 2 ≤ s.visibleRows) : Pict g (updateDisplay g s) := by
  obtain ⟨t1, t2, t3, t4, t5, t6⟩ := drawBase_visible hg hv h0 h1 ht
  have t6 := t6 h.top
  obtain ⟨s1, s2⟩ := drawBase_stage h.stage
  have hm := drawBase_more (g := g) h0
  have hcb := core_drawBase g s
  have hcc := core_drawCar g (drawBase g s)
  generalize hB : drawBase g s = B at *
  have hC : (drawCar g B).top = B.top ∧ (drawCar g B).displayedRows = B.displayedRows ∧ (drawCar g B).expanded = B.expanded ∧
    (drawCar g B).screen = B.screen ∧ (drawCar g B).prevDisplayed = B.prevDisplayed ∧
    (drawCar g B).commentDisplayed = B.commentDisplayed ∧ (drawCar g B).clearDisplay = B.clearDisplay := ⟨rfl, rfl, rfl, rfl, rfl, rfl, rfl⟩
  have s1 : Stage g (drawCar g B) (drawCar g B).displayedRows.toNat := s1
  have s2 : (drawCar g B).displayedRows = rowsFor g (drawCar g B) := s2
  have hm : (drawCar g B).expanded = false → (drawCar g B).displayedRows < (drawCar g B).matchRows → showMore g (drawCar g B) = true := hm
  have t1 : 0 ≤ (drawCar g B).top := t1
  have hsc := hcb.trans hcc
  obtain ⟨k1, k2, k3, _⟩ := hC
  rw [← k1] at t6
  rw [← k2] at t4 t5
  generalize hD : drawCar g B = D at *
  have hup : updateDisplay g s = { comment g (paint g D.displayedRows.toNat 0 D) with prevDisplayed := D.index, anyDisplayed := true } := by
    unfold updateDisplay
    rw [if_neg (by omega), hB, hD]
  have hw := stage_draw (hsc.gridOk hg) t1 (by rw [hsc.index]; exact h0) (by omega) (by rw [hsc.rows]; omega)
    (by rw [s2]; exact rowsFor_lt) (fun x y => by
      have e := s2
      rw [rowsFor_expanded x] at e; omega) hm s1
  have hcp := (core_paint g D.displayedRows.toNat 0 D).trans (core_comment g _)
  have hvp := (view_paint g D.displayedRows.toNat 0 D).trans (view_comment g _)
  generalize comment g (paint g D.displayedRows.toNat 0 D) = E at hup hw hcp hvp
  have hG : gridOf g (updateDisplay g s) = gridOf g D := by rw [hup]; exact hcp.grid
  have e0 : (updateDisplay g s).index = D.index := by rw [hup]; exact hcp.index
  have e1 : (updateDisplay g s).top = D.top := by rw [hup]; exact hvp.top
  have e2 : (updateDisplay g s).displayedRows = D.displayedRows := by rw [hup]; exact hvp.displayed
  have e3 : (updateDisplay g s).screen = E.screen := by rw [hup]
  have e4 : (updateDisplay g s).clearDisplay = false := by rw [hup]; exact hw.2
  have e5 : rowsFor g (updateDisplay g s) = rowsFor g D := by
    rw [hup]; exact rowsFor_same (s' := E) hcp hvp.expanded
  have hcu := core_updateDisplay g s
  refine ⟨by rw [hG, e0, e1, e2, e3]; exact hw.1, by rw [e2, e5]; exact s2, by rw [e1, hcu.rows, hcu.visible]; exact t6,
    by rw [e0, hup], by rw [hup], e4⟩

end Clink.Menu
