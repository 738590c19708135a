import Verif.Proof.MenuVisible

/-!
The selected match is always one of the matches, and on the screen.
-/

namespace Clink.Menu
open Spec

/-- What laying out does not change. -/
structure SamePlace (s s' : St) : Prop where
  it : s'.it = s.it
  index : s'.index = s.index
  top : s'.top = s.top
  displayed : s'.displayedRows = s.displayedRows
  expanded : s'.expanded = s.expanded
  line : s'.line = s.line
  screenCols : s'.screenCols = s.screenCols
  screenRows : s'.screenRows = s.screenRows
  botlin : s'.visBotlin = s.visBotlin
  prev : s'.prevDisplayed = s.prevDisplayed
  comment : s'.commentDisplayed = s.commentDisplayed
  clear : s'.clearDisplay = s.clearDisplay
  any : s'.anyDisplayed = s.anyDisplayed
  screen : s'.screen = s.screen
  bar : s'.barClicked = s.barClicked
  latched : s'.latched = s.latched
  prevInput : s'.prevInput = s.prevInput

theorem SamePlace.refl (s : St) : SamePlace s s := by constructor <;> rfl

theorem SamePlace.trans {a b c : St} (h : SamePlace a b) (k : SamePlace b c) : SamePlace a c := by
  obtain ⟨h1, h2, h3, h4, h5, h6, h7, h8, h9, h10, h11, h12, h13, h14, h15, h16, h17⟩ := h
  obtain ⟨k1, k2, k3, k4, k5, k6, k7, k8, k9, k10, k11, k12, k13, k14, k15, k16, k17⟩ := k
  constructor <;> simp [*]

/-- The columns of a state are those of its matches. -/
def WidthsOk (s : St) : Prop := ∃ a b, s.widths = s.it.columns a b

/-- The number of columns for the descriptions as they are. -/
def colsOf (s : St) : Int :=
  max 1 (if (!(!s.descBelow && s.it.hasDesc) || s.widths.rightJustify) = true then s.widths.list.length else 1)

theorem maxIf {p : Prop} [Decidable p] {n m : Int} (h : n ≤ m) (k : 1 ≤ m) : max 1 (if p then n else 1) ≤ m := by
  split <;> omega

theorem layoutGrid_spec (g : Cfg) (s : St) (hi : ItemsOk g s.it) (hw : s.calcWidths = true ∨ WidthsOk s) :
    SamePlace s (layoutGrid s) ∧ GridOk g (layoutGrid s) ∧ WidthsOk (layoutGrid s) ∧ (layoutGrid s).calcWidths = false ∧
      (layoutGrid s).matchCols = colsOf (layoutGrid s) := by
  unfold layoutGrid
  dsimp only
  have hws : ∀ (s1 : St), s1.it = s.it → WidthsOk s1 → (g.horizontal = true → (s1.widths.list.length : Int) ≤ s.count) := by
    intro s1 e ⟨a, b, h⟩ hh
    have := hi.few hh a b
    rw [h, e]; unfold St.count; omega
  have hc : 1 ≤ s.count := by unfold St.count; have := hi.count; omega
  by_cases hcal : s.calcWidths = true
  · rw [if_pos hcal]
    generalize hone : (!s.descBelow && s.it.hasDesc && decide (s.count ≤ 9) && !s.it.onlyShort) = one
    have hl := hws { s with widths := s.it.columns one s.descBelow } rfl ⟨one, s.descBelow, rfl⟩
    dsimp only at hl
    split <;>
    · refine ⟨by constructor <;> rfl, ⟨hc, by dsimp only; omega, rfl, ?_⟩, ⟨one, s.descBelow, rfl⟩, rfl, rfl⟩
      intro hh
      exact maxIf (hl hh) hc
  · rw [if_neg hcal]
    have hw : WidthsOk s := by simpa [hcal] using hw
    have hl := hws s rfl hw
    split <;>
    · refine ⟨by constructor <;> rfl, ⟨hc, by dsimp only; omega, rfl, ?_⟩, hw, by simpa using hcal, rfl⟩
      intro hh
      exact maxIf (hl hh) hc

theorem cut2 (v : Int) : (if v < 2 then 0 else v) = 0 ∨ 2 ≤ (if v < 2 then 0 else v) := by split <;> omega

theorem roomFor_range (g : Cfg) (s : St) : roomFor g s = 0 ∨ 2 ≤ roomFor g s := by
  unfold roomFor
  exact cut2 _

theorem updateLayout_spec (g : Cfg) (s : St) (hi : ItemsOk g s.it) (hw : s.calcWidths = true ∨ WidthsOk s) :
    SamePlace s (updateLayout g s) ∧ GridOk g (updateLayout g s) ∧ WidthsOk (updateLayout g s) ∧
      (updateLayout g s).calcWidths = false ∧ ((updateLayout g s).visibleRows = 0 ∨ 2 ≤ (updateLayout g s).visibleRows) ∧
      (updateLayout g s).scrollCar = false ∧ (updateLayout g s).matchCols = colsOf (updateLayout g s) := by
  unfold updateLayout
  dsimp only
  generalize h1 : (if (s.calcWidths && s.initDescBelow) = true then { s with initDescBelow := false, descBelow := false } else s) = s1
  have e1 : SamePlace s s1 ∧ s1.calcWidths = s.calcWidths ∧ s1.widths = s.widths := by
    subst h1; split <;> exact ⟨by constructor <;> rfl, rfl, rfl⟩
  generalize hm : (s.calcWidths && s.initDescBelow && s1.it.hasDesc && decide (s1.count > 100) && !s1.it.onlyShort) = many
  generalize h2 : (if many = true then { s1 with descBelow := true } else s1) = s2
  have e2 : SamePlace s s2 ∧ s2.calcWidths = s.calcWidths ∧ s2.widths = s.widths := by
    subst h2; split
    · exact ⟨e1.1.trans (by constructor <;> rfl), e1.2.1, e1.2.2⟩
    · exact e1
  have l3 := layoutGrid_spec g s2 (by rw [e2.1.it]; exact hi) (by
    rcases hw with h | ⟨a, b, h⟩
    · left; rw [e2.2.1]; exact h
    · right; exact ⟨a, b, by rw [e2.2.2, e2.1.it]; exact h⟩)
  generalize h3 : layoutGrid s2 = s3 at l3
  generalize hc : (s.calcWidths && s.initDescBelow && !many && !s3.descBelow && s3.it.hasDesc && decide (s3.matchRows > 9) &&
    !s3.it.onlyShort) = cond
  generalize h4 : (if cond = true then layoutGrid { s3 with calcWidths := true, descBelow := true } else s3) = s4
  have l4 : SamePlace s s4 ∧ GridOk g s4 ∧ WidthsOk s4 ∧ s4.calcWidths = false ∧ s4.matchCols = colsOf s4 := by
    subst h4
    split
    · have := layoutGrid_spec g { s3 with calcWidths := true, descBelow := true } (by
        show ItemsOk g s3.it; rw [l3.1.it, e2.1.it]; exact hi) (Or.inl rfl)
      refine ⟨(e2.1.trans l3.1).trans ((?_ : SamePlace s3 _).trans this.1), this.2⟩
      constructor <;> rfl
    · exact ⟨e2.1.trans l3.1, l3.2⟩
  have hr := roomFor_range g s4
  obtain ⟨a1, a2, a3, a4, a5⟩ := l4
  refine ⟨a1.trans (by constructor <;> rfl), ⟨a2.count, a2.cols, a2.rows, a2.few⟩, a3, a4, hr, rfl, a5⟩

/-- What always holds while the list is open. -/
structure Inv (g : Cfg) (s : St) : Prop where
  items : ItemsOk g s.it
  grid : GridOk g s
  widths : WidthsOk s
  calcW : s.calcWidths = false
  colsEq : s.matchCols = colsOf s
  index0 : 0 ≤ s.index
  index1 : s.index < s.count
  top : 0 ≤ s.top
  room : s.visibleRows ≤ 0 ∨ 2 ≤ s.visibleRows
  shown1 : 0 < s.visibleRows → s.top ≤ rowOf g s s.index
  shown2 : 0 < s.visibleRows → rowOf g s s.index < s.top + s.displayedRows
  disp : 0 < s.visibleRows → 1 ≤ s.displayedRows ∧ s.displayedRows ≤ min s.visibleRows s.matchRows

theorem SameCore.colsOf {s s' : St} (h : SameCore s s') : colsOf s' = colsOf s := by
  unfold Menu.colsOf; rw [h.below, h.it, h.widths]

/-- What is needed before the list is drawn. -/
structure Ready (g : Cfg) (s : St) : Prop where
  items : ItemsOk g s.it
  grid : GridOk g s
  widths : WidthsOk s
  calcW : s.calcWidths = false
  colsEq : s.matchCols = colsOf s
  index0 : 0 ≤ s.index
  index1 : s.index < s.count
  top : 0 ≤ s.top
  room : s.visibleRows ≤ 0 ∨ 2 ≤ s.visibleRows

theorem Inv.ready {g : Cfg} {s : St} (h : Inv g s) : Ready g s :=
  ⟨h.items, h.grid, h.widths, h.calcW, h.colsEq, h.index0, h.index1, h.top, h.room⟩

theorem Ready.display {g : Cfg} {s : St} (h : Ready g s) : Inv g (updateDisplay g s) := by
  have hc := core_updateDisplay g s
  have hk : Ready g s := h
  obtain ⟨a, b, c, d, e, f, i, j, k⟩ := h
  by_cases hv : 0 < s.visibleRows
  · have hb := drawBase_visible b (by omega) f i j
    obtain ⟨v1, v2, v3, _⟩ := view_updateDisplay g s hv
    refine ⟨by rw [hc.it]; exact a, hc.gridOk b, ?_, by rw [hc.calcW]; exact d, by rw [hc.cols, hc.colsOf]; exact e,
      by rw [hc.index]; exact f, by rw [hc.index, hc.count]; exact i, by rw [v1]; exact hb.1, by rw [hc.visible]; exact k,
      fun _ => ?_, fun _ => ?_, fun _ => ?_⟩
    · obtain ⟨p, q, r⟩ := c
      exact ⟨p, q, by rw [hc.widths, hc.it]; exact r⟩
    · rw [hc.index, hc.rowOf, v1]; exact hb.2.1
    · rw [hc.index, hc.rowOf, v1, v2]; exact hb.2.2.1
    · rw [v2, hc.rows, hc.visible]; omega
  · have : (updateDisplay g s).top = s.top := by
      unfold updateDisplay; rw [if_pos (by omega)]
    refine ⟨by rw [hc.it]; exact a, hc.gridOk b, ?_, by rw [hc.calcW]; exact d, by rw [hc.cols, hc.colsOf]; exact e,
      by rw [hc.index]; exact f, by rw [hc.index, hc.count]; exact i, by rw [this]; exact j, by rw [hc.visible]; exact k,
      fun hh => ?_, fun hh => ?_, fun hh => ?_⟩
    · obtain ⟨p, q, r⟩ := c
      exact ⟨p, q, by rw [hc.widths, hc.it]; exact r⟩
    all_goals (rw [hc.visible] at hh; omega)

theorem Ready.insert {g : Cfg} {s : St} (h : Ready g s) : Ready g (insertMatch g s) := by
  obtain ⟨a, b, c, d, e, f, i, j, k⟩ := h
  unfold insertMatch
  dsimp only
  split
  · have := updateLayout_spec g { s with line := s.index, visBotlin := s.it.botlin s.index, screen := fun _ => .blank, prevDisplayed := -1, commentDisplayed := false } a (Or.inr c)
    obtain ⟨p, q, r, t, u, _, w⟩ := this
    refine ⟨by rw [p.it]; exact a, q, r, t, w, by rw [p.index]; exact f, ?_, by rw [p.top]; exact j, by omega⟩
    rw [p.index]; unfold St.count; rw [p.it]; exact i
  · exact ⟨a, ⟨b.count, b.cols, b.rows, b.few⟩, c, d, e, f, i, j, k⟩

theorem Ready.nav {g : Cfg} {s : St} (h : Ready g s) : Inv g (navigated g s) := h.insert.display

/-- Only the index changes. -/
theorem Ready.index {g : Cfg} {s : St} (h : Ready g s) {i : Int} (h0 : 0 ≤ i) (h1 : i < s.count) {l : Bool} :
    Ready g { s with index := i, latched := l } := by
  obtain ⟨a, b, c, d, e, f, _, j, k⟩ := h
  exact ⟨a, ⟨b.count, b.cols, b.rows, b.few⟩, c, d, e, h0, h1, j, k⟩

theorem Ready.setTop {g : Cfg} {s : St} (h : Ready g s) {t : Int} (ht : 0 ≤ t) : Ready g (setTop s t) := by
  obtain ⟨a, b, c, d, e, f, i, j, k⟩ := h
  have hc := core_setTop s t
  refine ⟨by rw [hc.it]; exact a, hc.gridOk b, ?_, by rw [hc.calcW]; exact d, by rw [hc.cols, hc.colsOf]; exact e,
      by rw [hc.index]; exact f, by rw [hc.index, hc.count]; exact i, by rw [setTop_top]; exact ht, by rw [hc.visible]; exact k⟩
  obtain ⟨p, q, r⟩ := c
  exact ⟨p, q, by rw [hc.widths, hc.it]; exact r⟩

end Clink.Menu
