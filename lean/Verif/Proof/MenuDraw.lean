import Verif.Proof.MenuGrid

/-!
Drawing the list.
-/

namespace Clink.Menu
open Spec

/-- What drawing does not change. -/
structure SameCore (s s' : St) : Prop where
  it : s'.it = s.it
  widths : s'.widths = s.widths
  cols : s'.matchCols = s.matchCols
  rows : s'.matchRows = s.matchRows
  visible : s'.visibleRows = s.visibleRows
  index : s'.index = s.index
  line : s'.line = s.line
  screenCols : s'.screenCols = s.screenCols
  screenRows : s'.screenRows = s.screenRows
  botlin : s'.visBotlin = s.visBotlin
  below : s'.descBelow = s.descBelow
  initBelow : s'.initDescBelow = s.initDescBelow
  requireBelow : s'.requireDescBelow = s.requireDescBelow
  calcW : s'.calcWidths = s.calcWidths
  ignore : s'.ignoreOfs = s.ignoreOfs
  latched : s'.latched = s.latched
  prevInput : s'.prevInput = s.prevInput
  bar : s'.barClicked = s.barClicked

theorem SameCore.refl (s : St) : SameCore s s := by constructor <;> rfl

theorem SameCore.trans {a b c : St} (h : SameCore a b) (k : SameCore b c) : SameCore a c := by
  obtain ⟨h1, h2, h3, h4, h5, h6, h7, h8, h9, h10, h11, h12, h13, h14, h15, h16, h17, h18⟩ := h
  obtain ⟨k1, k2, k3, k4, k5, k6, k7, k8, k9, k10, k11, k12, k13, k14, k15, k16, k17, k18⟩ := k
  constructor <;> simp [*]

theorem SameCore.count {s s' : St} (h : SameCore s s') : s'.count = s.count := by unfold St.count; rw [h.it]

theorem SameCore.rowOf {g : Cfg} {s s' : St} (h : SameCore s s') (i : Int) : rowOf g s' i = rowOf g s i := by
  unfold Menu.rowOf; rw [h.cols, h.rows]

theorem SameCore.major {g : Cfg} {s s' : St} (h : SameCore s s') : major g s' = major g s := by
  unfold Menu.major; rw [h.cols]

theorem SameCore.minor {g : Cfg} {s s' : St} (h : SameCore s s') : minor g s' = minor g s := by
  unfold Menu.minor; rw [h.rows]

theorem SameCore.grid {g : Cfg} {s s' : St} (h : SameCore s s') : gridOf g s' = gridOf g s := by
  unfold gridOf; rw [h.count, h.rows, h.cols]

theorem SameCore.gridOk {g : Cfg} {s s' : St} (h : SameCore s s') (k : GridOk g s) : GridOk g s' := by
  obtain ⟨k1, k2, k3, k4⟩ := k
  constructor
  · rw [h.count]; exact k1
  · rw [h.cols]; exact k2
  · rw [h.rows, h.cols, h.count]; exact k3
  · rw [h.cols, h.count]; exact k4

theorem core_setTop (s : St) (t : Int) : SameCore s (setTop s t) := by
  unfold setTop; split <;> constructor <;> rfl

theorem setTop_top (s : St) (t : Int) : (setTop s t).top = t := by
  unfold setTop; split
  · rfl
  · rename_i h; simpa using Eq.symm (Decidable.of_not_not h)

theorem setTop_expanded (s : St) (t : Int) : (setTop s t).expanded = s.expanded := by
  unfold setTop; split <;> rfl

theorem setTop_displayed (s : St) (t : Int) : (setTop s t).displayedRows = s.displayedRows := by
  unfold setTop; split <;> rfl

theorem core_topFit (g : Cfg) (s : St) : SameCore s (topFit g s) := by
  unfold topFit; dsimp only
  split
  · exact core_setTop _ _
  · split
    · exact core_setTop _ _
    · exact .refl _

theorem core_topOfs (g : Cfg) (s : St) : SameCore s (topOfs g s) := by
  unfold topOfs; dsimp only
  split
  · split
    · exact core_setTop _ _
    · split
      · exact core_setTop _ _
      · exact .refl _
  · exact .refl _

theorem core_updateTop (g : Cfg) (s : St) : SameCore s (updateTop g s) := (core_topFit g s).trans (core_topOfs g _)

theorem core_expand (g : Cfg) (s : St) : SameCore s (expand g s) := by
  unfold expand
  split
  · exact .refl _
  · split
    · constructor <;> rfl
    · split
      · split
        · constructor <;> rfl
        · exact .refl _
      · exact .refl _

theorem core_clearAt (row : Nat) (s : St) : SameCore s (clearAt row s) := by
  unfold clearAt; split <;> constructor <;> rfl

theorem core_paintRow (g : Cfg) (row : Nat) (s : St) : SameCore s (paintRow g row s) := by
  unfold paintRow; split <;> constructor <;> rfl

theorem core_paint (g : Cfg) (n row : Nat) (s : St) : SameCore s (paint g n row s) := by
  induction n generalizing row s with
  | zero => exact .refl _
  | succ n ih =>
    rw [paint]
    split
    · exact .refl _
    · exact (core_clearAt row s).trans ((core_paintRow g row _).trans (ih _ _))

theorem core_comment (g : Cfg) (s : St) : SameCore s (comment g s) := by
  unfold comment; dsimp only
  split
  · split
    · exact .refl _
    · constructor <;> rfl
  · exact .refl _

theorem core_drawBase (g : Cfg) (s : St) : SameCore s (drawBase g s) := by
  unfold drawBase
  refine SameCore.trans (SameCore.trans ?_ (core_expand g { s with scrollCar := false, scrollColumn := 0 })) ?_
  · constructor <;> rfl
  · refine SameCore.trans ?_ (core_updateTop g _)
    constructor <;> rfl

theorem core_drawCar (g : Cfg) (s : St) : SameCore s (drawCar g s) := by
  unfold drawCar; constructor <;> rfl

theorem updateTop_displayed (g : Cfg) (s : St) : (updateTop g s).displayedRows = s.displayedRows := by
  unfold updateTop topOfs topFit
  dsimp only
  repeat' split
  all_goals simp only [setTop_displayed]

theorem updateTop_expanded (g : Cfg) (s : St) : (updateTop g s).expanded = s.expanded := by
  unfold updateTop topOfs topFit
  dsimp only
  repeat' split
  all_goals simp only [setTop_expanded]

theorem core_updateDisplay (g : Cfg) (s : St) : SameCore s (updateDisplay g s) := by
  unfold updateDisplay
  split
  · constructor <;> rfl
  · dsimp only
    have h : SameCore s (comment g (paint g (drawCar g (drawBase g s)).displayedRows.toNat 0 (drawCar g (drawBase g s)))) :=
      ((core_drawBase g s).trans (core_drawCar g _)).trans ((core_paint g _ 0 _).trans (core_comment g _))
    obtain ⟨h1, h2, h3, h4, h5, h6, h7, h8, h9, h10, h11, h12, h13, h14, h15, h16, h17, h18⟩ := h
    constructor <;> assumption

end Clink.Menu
