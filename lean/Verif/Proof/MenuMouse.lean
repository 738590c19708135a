import Verif.Proof.MenuKeys

/-!
Pages, the wheel, clicks, and the line.
-/

namespace Clink.Menu
open Spec

/-- The cell that is `k` rows further down. -/
theorem cell_down {g : Cfg} {s : St} (h : GridOk g s) {i k : Int} (h0 : 0 ≤ i) (h1 : i < s.count)
    (hk : 0 ≤ rowOf g s i + k) (hk' : rowOf g s i + k < s.matchRows) (hc : i + k * major g s < s.count) :
    (gridOf g s).Cell i (rowOf g s i) (Grid.colI (gridOf g s) i) ∧
      (gridOf g s).Cell (i + k * major g s) (rowOf g s i + k) (Grid.colI (gridOf g s) i) := by
  obtain ⟨a, b, c⟩ := rowOf_add h h0 h1 hk hk'
  have x := cell_of h.fits h0 (show i < (gridOf g s).count from h1)
  have y := cell_of h.fits a (show i + k * major g s < (gridOf g s).count from hc)
  rw [← rowOf_eq h0] at x
  rw [← rowOf_eq a, b, c] at y
  exact ⟨x, y⟩

/-- The cell that is `k` rows further down, if there is no match for it. -/
theorem cell_none {g : Cfg} {s : St} (h : GridOk g s) {i k : Int} (h0 : 0 ≤ i) (h1 : i < s.count)
    (hk : 0 ≤ rowOf g s i + k) (hk' : rowOf g s i + k < s.matchRows) (hc : s.count ≤ i + k * major g s) :
    (gridOf g s).Cell i (rowOf g s i) (Grid.colI (gridOf g s) i) ∧
      ∀ j, ¬ (gridOf g s).Cell j (rowOf g s i + k) (Grid.colI (gridOf g s) i) := by
  obtain ⟨a, b, c⟩ := rowOf_add h h0 h1 hk hk'
  have x := cell_of h.fits h0 (show i < (gridOf g s).count from h1)
  rw [← rowOf_eq h0] at x
  refine ⟨x, fun j hj => ?_⟩
  have e : (gridOf g s).item (rowOf g s i + k) (Grid.colI (gridOf g s) i) = i + k * major g s := by
    have hx := x.2.2.2.2.2
    unfold Grid.item at hx ⊢
    unfold major
    have eh : (gridOf g s).horizontal = g.horizontal := rfl
    have ec : (gridOf g s).cols = s.matchCols := rfl
    rw [eh, ec] at hx ⊢
    split at hx
    · rename_i hh
      rw [if_pos hh, if_pos hh, Int.add_mul]; omega
    · rename_i hh
      rw [if_neg hh, if_neg hh]; omega
  have h5 : j < s.count := hj.2.2.2.2.1
  have h6 := hj.2.2.2.2.2
  omega

theorem pageUp_spec {g : Cfg} {s : St} (h : Inv g s) (hv : 0 < s.visibleRows) :
    (∃ c, (gridOf g s).Cell s.index 0 c ∧ (pageUp g s).index = 0) ∨
      ∃ r c r', (gridOf g s).Cell s.index r c ∧ (gridOf g s).Cell (pageUp g s).index r' c ∧ r' < r ∧ r - r' < s.visibleRows := by
  have hr := rowOf_range h.grid h.index0 h.index1
  have hp := h.page hv
  have ht := h.top
  have hs2 := h.shown2 hv
  have hd := h.disp hv
  unfold pageUp
  dsimp only
  split
  · rename_i hy
    left
    have x := cell_of h.grid.fits h.index0 (show s.index < (gridOf g s).count from h.index1)
    rw [← rowOf_eq h.index0, hy] at x
    exact ⟨_, x, by rw [(nav_index g _).1]⟩
  · rename_i hy
    right
    generalize hY : max 0 (if rowOf g s s.index ≤ s.top + scrollOfs g s then rowOf g s s.index - (min s.matchRows s.visibleRows - scrollOfs g s - 1)
        else s.top + scrollOfs g s) = y'
    have hb : 0 ≤ y' ∧ y' < rowOf g s s.index ∧ rowOf g s s.index - y' < s.visibleRows := by
      subst hY; split <;> omega
    have hu := row_up h.grid h.index0 h.index1 hb.1 (by omega)
    obtain ⟨a, b⟩ := cell_down h.grid h.index0 h.index1 (k := y' - rowOf g s s.index) (by omega) (by omega) hu.2
    rw [(nav_index g _).1]
    refine ⟨_, _, _, a, b, by omega, by omega⟩

theorem pageDown_spec {g : Cfg} {s : St} (h : Inv g s) (hv : 0 < s.visibleRows) :
    ((pageDown g s).index = s.count - 1 ∧ ∃ r c, (gridOf g s).Cell s.index r c ∧
      (r = s.matchRows - 1 ∨ ∃ r', r < r' ∧ r' < s.matchRows ∧ r' - r < s.visibleRows ∧ ∀ j, ¬ (gridOf g s).Cell j r' c)) ∨
      ∃ r c r', (gridOf g s).Cell s.index r c ∧ (gridOf g s).Cell (pageDown g s).index r' c ∧ r < r' ∧ r' - r < s.visibleRows := by
  have hr := rowOf_range h.grid h.index0 h.index1
  have hp := h.page hv
  have ht := h.top
  have hs1 := h.shown1 hv
  unfold pageDown
  dsimp only
  split
  · rename_i hy
    left; rw [(nav_index g _).1]
    have x := cell_of h.grid.fits h.index0 (show s.index < (gridOf g s).count from h.index1)
    rw [← rowOf_eq h.index0] at x
    exact ⟨rfl, _, _, x, Or.inl hy⟩
  · rename_i hy
    have hd := h.downY hv hy
    have hb : downY g s - rowOf g s s.index < s.visibleRows := by
      unfold Menu.downY; split <;> omega
    generalize hY : Menu.downY g s = Y at hd hb
    unfold Menu.downY at hY
    rw [hY]
    have idx : ∀ (i t : Int), (navigated g (setTop { s with index := i } t)).index = i := fun i t => by
      rw [(nav_index g _).1, (core_setTop _ _).index]
    split
    · rename_i hge
      have hnone := cell_none h.grid h.index0 h.index1 (k := Y - rowOf g s s.index) (by omega) (by omega) (by omega)
      split
      · rename_i hh
        rw [idx]
        split
        · rename_i hlt
          right
          have e : s.index + (Y - rowOf g s s.index) * major g s - major g s = s.index + (Y - rowOf g s s.index - 1) * major g s := by
            rw [Int.sub_mul _ 1]; omega
          have := rowOf_add h.grid h.index0 h.index1 (k := Y - rowOf g s s.index - 1) (by omega) (by omega)
          have hf := row_full h.grid hh this.1 (by omega)
          obtain ⟨a, b⟩ := cell_down h.grid h.index0 h.index1 (k := Y - rowOf g s s.index - 1) (by omega) (by omega) hf
          rw [e]
          exact ⟨_, _, _, a, b, by omega, by omega⟩
        · left; exact ⟨rfl, _, _, hnone.1, Or.inr ⟨_, by omega, by omega, by omega, hnone.2⟩⟩
      · left; rw [idx]; exact ⟨rfl, _, _, hnone.1, Or.inr ⟨_, by omega, by omega, by omega, hnone.2⟩⟩
    · rename_i hlt
      right
      obtain ⟨a, b⟩ := cell_down h.grid h.index0 h.index1 (k := Y - rowOf g s s.index) (by omega) (by omega) (by omega)
      rw [idx]
      exact ⟨_, _, _, a, b, by omega, by omega⟩

theorem wheelUp_spec {g : Cfg} {s : St} (h : Inv g s) (n : Nat) :
    (∃ r c, (gridOf g s).Cell s.index r c ∧ (gridOf g s).Cell (wheelUp g s n).index (max 0 (r - n)) c) ∧ (wheelUp g s n).line = s.line := by
  have hr := rowOf_range h.grid h.index0 h.index1
  unfold wheelUp
  dsimp only
  have hu := row_up h.grid h.index0 h.index1 (y' := rowOf g s s.index - min (rowOf g s s.index) n) (by omega) (by omega)
  obtain ⟨a, b⟩ := cell_down h.grid h.index0 h.index1 (k := rowOf g s s.index - min (rowOf g s s.index) n - rowOf g s s.index) (by omega) (by omega) hu.2
  have e : s.index + (rowOf g s s.index - min (rowOf g s s.index) n - rowOf g s s.index) * major g s =
      s.index - min (rowOf g s s.index) n * major g s := by
    rw [show rowOf g s s.index - min (rowOf g s s.index) n - rowOf g s s.index = -(min (rowOf g s s.index) n) by omega, Int.neg_mul]; omega
  rw [e] at b
  have er : rowOf g s s.index + (rowOf g s s.index - min (rowOf g s s.index) n - rowOf g s s.index) = max 0 (rowOf g s s.index - n) := by omega
  rw [er] at b
  split
  · have hk := core_updateDisplay g { s with index := s.index - min (rowOf g s s.index) ↑n * major g s }
    exact ⟨⟨_, _, a, by rw [hk.index]; exact b⟩, hk.line⟩
  · rename_i hne
    refine ⟨⟨_, _, a, ?_⟩, rfl⟩
    have : s.index - min (rowOf g s s.index) ↑n * major g s = s.index := Classical.byContradiction hne
    rw [this] at b; exact b

theorem wheelState_index {g : Cfg} {s : St} {i : Int} : (wheelState g s i).index = (if i ≥ s.count then s.count - 1 else i) ∧
    (wheelState g s i).line = s.line := by
  unfold wheelState
  dsimp only
  split
  · split
    · exact ⟨(core_setTop _ _).index, (core_setTop _ _).line⟩
    · exact ⟨rfl, rfl⟩
  · exact ⟨rfl, rfl⟩

theorem wheelDown_spec {g : Cfg} {s : St} (h : Inv g s) (n : Nat) :
    (∃ r c, (gridOf g s).Cell s.index r c ∧ ((gridOf g s).Cell (wheelDown g s n).index (min (s.matchRows - 1) (r + n)) c ∨
      (wheelDown g s n).index = s.count - 1 ∧ ∀ j, ¬ (gridOf g s).Cell j (min (s.matchRows - 1) (r + n)) c)) ∧
    (wheelDown g s n).line = s.line := by
  have hr := rowOf_range h.grid h.index0 h.index1
  have hi : (wheelDown g s n).index = (wheelState g s (s.index + min (s.matchRows - 1 - rowOf g s s.index) ↑n * major g s)).index ∧
      (wheelDown g s n).line = s.line := by
    unfold wheelDown
    dsimp only
    split
    · have hk := core_updateDisplay g (wheelState g s (s.index + min (s.matchRows - 1 - rowOf g s s.index) ↑n * major g s))
      exact ⟨hk.index, by rw [hk.line, wheelState_index.2]⟩
    · exact ⟨rfl, wheelState_index.2⟩
  refine ⟨?_, hi.2⟩
  rw [hi.1, wheelState_index.1]
  split
  · obtain ⟨a, b⟩ := cell_none h.grid h.index0 h.index1 (k := min (s.matchRows - 1 - rowOf g s s.index) n) (by omega) (by omega) (by omega)
    refine ⟨_, _, a, Or.inr ⟨rfl, ?_⟩⟩
    rw [show min (s.matchRows - 1) (rowOf g s s.index + n) = rowOf g s s.index + min (s.matchRows - 1 - rowOf g s s.index) n by omega]
    exact b
  · obtain ⟨a, b⟩ := cell_down h.grid h.index0 h.index1 (k := min (s.matchRows - 1 - rowOf g s s.index) n) (by omega) (by omega) (by omega)
    refine ⟨_, _, a, Or.inl ?_⟩
    rw [show min (s.matchRows - 1) (rowOf g s s.index + n) = rowOf g s s.index + min (s.matchRows - 1 - rowOf g s s.index) n by omega]
    exact b

/-- The column that is found. -/
theorem hitColumn_under {screenCols pad minor p0 : Int} (hp : 0 ≤ pad) (h0 : p0 < screenCols) :
    ∀ (l : List Int) (c : Nat) (x i : Int), (∀ w ∈ l, 0 ≤ w) → 0 ≤ x → c < l.length → Under l pad (p0 - x) c →
      hitColumn screenCols pad minor false p0 l x i = some (i + c * minor) := by
  intro l
  induction l with
  | nil => intro c x i _ _ hc; simp at hc
  | cons w ws ih =>
    intro c x i hw hx hc hu
    have hw0 := hw w (List.mem_cons_self ..)
    have hws : ∀ v ∈ ws, 0 ≤ v := fun v hv => hw v (List.mem_cons_of_mem _ hv)
    rw [hitColumn]
    generalize hcw : (if ws.isEmpty = true then w + screenCols else if false = true then w + pad else w) = cw
    cases c with
    | zero =>
      obtain ⟨u1, u2⟩ := hu
      rw [start] at u1
      have : p0 ≥ x ∧ p0 < x + cw := by
        refine ⟨by omega, ?_⟩
        rcases u2 with ⟨v, hv, hlt⟩ | hl
        · simp only [List.getElem?_cons_zero, Option.some.injEq] at hv
          rw [start] at hlt
          subst hv hcw
          split
          · omega
          · rw [if_neg (by simp)]; omega
        · have : ws = [] := by
            simp only [List.length_cons] at hl
            exact List.eq_nil_of_length_eq_zero (by omega)
          subst this hcw
          simp only [List.isEmpty_nil, if_true]
          omega
      rw [if_pos this]
      simp
    | succ c =>
      have hne : ws.isEmpty = false := by
        cases ws with
        | nil => simp at hc
        | cons => rfl
      rw [hne] at hcw
      simp only [Bool.false_eq_true, if_false] at hcw
      subst hcw
      obtain ⟨u1, u2⟩ := hu
      rw [start] at u1
      have hst : 0 ≤ start pad ws c := by
        clear u1 u2 hne hc ih hw
        induction ws generalizing c with
        | nil => cases c <;> simp [start]
        | cons v vs ihh =>
          cases c with
          | zero => simp [start]
          | succ c =>
            have := ihh (fun q hq => hws q (List.mem_cons_of_mem _ hq)) (c := c)
            have hv := hws v (List.mem_cons_self ..)
            rw [start]; omega
      rw [if_neg (by omega)]
      rw [ih c (x + w + pad) (i + minor) hws (by omega) (by simpa using hc)]
      · have e : ((c + 1 : Nat) : Int) * minor = c * minor + minor := by
          rw [Int.natCast_add, Int.add_mul]; simp
        rw [e]
        congr 1
        omega
      · refine ⟨by omega, ?_⟩
        rcases u2 with ⟨v, hv, hlt⟩ | hl
        · left
          refine ⟨v, by simpa using hv, ?_⟩
          rw [start] at hlt
          omega
        · right
          simpa using hl

/-- A click on a match. -/
theorem click_spec {g : Cfg} {s : St} (h : Inv g s) (hv : 0 < s.visibleRows) {p0 p1 speed : Int} {can : Bool} (hp0 : p0 < s.screenCols)
    (hbar : (s.scrollCar = true ∧ p0 ≠ s.scrollColumn) ∨ (s.scrollCar = false ∧ s.barClicked = false))
    (hp1 : 0 ≤ p1) (hp1' : p1 < s.displayedRows) {i : Int} {c : Nat} (hc : (gridOf g s).Cell i (s.top + p1) c)
    (hu : Under s.widths.list s.widths.padding p0 c) (hcl : c < s.widths.list.length) :
    ∃ r, mouse g s .click p0 p1 can speed = some r ∧ r.index = i ∧ r.line = i ∧ (Steady s → r.top = s.top) := by
  have hi0 := cell_nonneg h.grid.fits hc
  have hi1 : i < s.count := hc.2.2.2.2.1
  have hb : ∃ b, barState s .click p0 p1 = { s with barClicked := b } ∧ b = false := by
    unfold barState
    rcases hbar with ⟨a, b⟩ | ⟨a, b⟩
    · rw [if_pos ⟨a, by simp⟩]
      exact ⟨_, rfl, by simp [b]⟩
    · rw [if_neg (by simp [a])]
      exact ⟨s.barClicked, rfl, b⟩
  obtain ⟨_, hb, rfl⟩ := hb
  generalize hS : ({ s with barClicked := false } : St) = S at hb
  have hInv : Inv g S := by subst hS; exact h.flags s.ignoreOfs s.latched s.prevInput false
  have e1 : S.displayedRows = s.displayedRows ∧ S.barClicked = false ∧ S.top = s.top ∧ SameGrid s S ∧ S.widths = s.widths ∧
      S.screenCols = s.screenCols := by
    subst hS; exact ⟨rfl, rfl, rfl, ⟨rfl, rfl, rfl, rfl, rfl⟩, rfl, rfl⟩
  obtain ⟨d1, d2, d3, d4, d5, d6⟩ := e1
  have hcnt : S.count = s.count := by unfold St.count; rw [d4.it]
  have hmaj : major g S = major g s ∧ minor g S = minor g s := by unfold major minor; rw [d4.cols, d4.rows]; exact ⟨rfl, rfl⟩
  have hhit : hitColumn S.screenCols S.widths.padding (minor g S) false p0 S.widths.list 0 (major g S * (p1 + S.top)) = some i := by
    obtain ⟨x, y, e⟩ := h.widths
    rw [d6, d5, hmaj.1, hmaj.2, d3]
    rw [hitColumn_under (by rw [e]; exact h.items.padding x y) hp0 _ c 0 _ (by rw [e]; exact h.items.widths x y) (by omega) hcl
      (by rw [Int.sub_zero]; exact hu)]
    have := hc.2.2.2.2.2
    rw [item_minor] at this
    rw [this, Int.mul_comm (major g s), Int.add_comm p1]
  have hst : hitState g S i S.top = { S with index := i, ignoreOfs := true } := by
    unfold hitState; rw [if_neg (by omega)]
  refine ⟨navigated g { S with index := i, ignoreOfs := true }, ?_, ?_, ?_, ?_⟩
  · unfold Menu.mouse
    dsimp only
    rw [hb, if_neg (by rw [d2]; simp), if_pos (by omega)]
    unfold mousePos
    rw [hhit]
    dsimp only
    rw [if_neg (by simp), hst]
  · exact (nav_index g _).1
  · exact (nav_index g _).2.2.1
  · intro hs
    unfold navigated
    have hsS : Steady { S with index := i, ignoreOfs := true } := hs.same d4.it d4.botlin
    rw [insertMatch_same (s := { S with index := i, ignoreOfs := true }) (hsS i hi0 (by rw [← hcnt] at hi1; exact hi1))]
    generalize hT : ({ S with index := i, ignoreOfs := true, line := i } : St) = T
    have f : T.top = s.top ∧ T.index = i ∧ T.ignoreOfs = true ∧ SameGrid S T := by
      subst hT; exact ⟨d3, rfl, rfl, ⟨rfl, rfl, rfl, rfl, rfl⟩⟩
    obtain ⟨f1, f2, f3, f4⟩ := f
    have hvT : 0 < T.visibleRows := by rw [f4.visible, d4.visible]; exact hv
    rw [(view_updateDisplay g T hvT).1]
    have hk := core_expand g { T with scrollCar := false, scrollColumn := 0 }
    have ht := expand_top g { T with scrollCar := false, scrollColumn := 0 }
    unfold drawBase
    dsimp only
    generalize expand g { T with scrollCar := false, scrollColumn := 0 } = E at hk ht
    have k1 : E.top = s.top := by rw [ht.1]; exact f1
    have k2 : E.index = i := by rw [hk.index]; exact f2
    have k3 : E.ignoreOfs = true := by rw [hk.ignore]; exact f3
    have k4 : E.matchRows = s.matchRows := by rw [hk.rows]; show T.matchRows = _; rw [f4.rows, d4.rows]
    have k5 : E.visibleRows = s.visibleRows := by rw [hk.visible]; show T.visibleRows = _; rw [f4.visible, d4.visible]
    have k6 : E.matchCols = s.matchCols := by rw [hk.cols]; show T.matchCols = _; rw [f4.cols, d4.cols]
    have hrow : rowOf g E i = s.top + p1 := by
      have : rowOf g E i = rowOf g s i := by unfold rowOf; rw [k4, k6]
      rw [this, rowOf_eq hi0]
      exact (cell_row hc).1
    have hd := h.disp hv
    have hfit : topFit g { E with displayedRows := rowsFor g E } = { E with displayedRows := rowsFor g E } := by
      unfold topFit
      dsimp only
      have hr : rowOf g { E with displayedRows := rowsFor g E } E.index = s.top + p1 := by rw [k2]; exact hrow
      rw [hr, if_neg (by omega), if_neg (by rw [k4, k5, k1]; have := h.top; omega)]
    unfold updateTop
    rw [hfit]
    unfold topOfs
    rw [if_neg (by simp [k3])]
    exact k1

/-- The end is latched only at the end. -/
def Lat (g : Cfg) (s : St) : Prop :=
  s.latched = true → s.index = s.count - 1 ∧ g.wrap = false ∧ (s.prevInput = 63 ∨ s.prevInput = 65 ∨ s.prevInput = 75)

theorem lat_false {g : Cfg} {s : St} (h : s.latched = false) : Lat g s := by
  intro hl; rw [h] at hl; cases hl

/-- Nothing is latched when another key is pressed. -/
theorem lat_before {g : Cfg} {s : St} (h : Lat g s) {i : Input} (h1 : i.id ≠ 63) (h2 : i.id ≠ 65) (h3 : i.id ≠ 75) :
    (before s i).latched = false := by
  unfold before
  dsimp only
  split
  · show (if i.id ≠ 63 ∧ i.id ≠ 65 then false else s.latched) = false
    rw [if_pos ⟨h1, h2⟩]
  · rename_i hp
    show s.latched = false
    have hp : s.prevInput = i.id := Classical.byContradiction hp
    cases hl : s.latched
    · rfl
    · obtain ⟨_, _, h⟩ := h hl
      omega

theorem next_flags (g : Cfg) (s : St) : (next g s).latched = s.latched ∧ (next g s).prevInput = s.prevInput ∧ (next g s).count = s.count := by
  unfold next; dsimp only
  obtain ⟨_, a, _, b, c⟩ := nav_index g { s with index := if s.index + 1 ≥ s.count then (if g.wrap then 0 else s.count - 1) else s.index + 1 }
  exact ⟨b, c, a⟩

theorem lat_arrowNext {g : Cfg} {s : St} (h : Lat g s) (h1 : s.index < s.count) (hp : s.prevInput = 63 ∨ s.prevInput = 65 ∨ s.prevInput = 75) :
    Lat g (arrowNext g s) := by
  intro hl
  have e : (arrowNext g s).prevInput = s.prevInput ∧ (arrowNext g s).count = s.count ∧
      (arrowNext g s).latched = (s.latched || (!g.wrap && decide (s.index = s.count - 1))) := by
    unfold arrowNext
    split
    · rename_i hc
      obtain ⟨a, b, c⟩ := next_flags g { s with latched := true }
      exact ⟨b, c, by rw [a, hc]; simp⟩
    · rename_i hc
      obtain ⟨a, b, c⟩ := next_flags g s
      exact ⟨b, c, by rw [a]; cases hx : (!g.wrap && decide (s.index = s.count - 1)) <;> simp_all⟩
  have hw : s.index = s.count - 1 ∧ g.wrap = false := by
    rw [e.2.2] at hl
    cases hs : s.latched
    · rw [hs] at hl
      simp only [Bool.false_or, Bool.and_eq_true, Bool.not_eq_true', decide_eq_true_eq] at hl
      exact ⟨hl.2, hl.1⟩
    · exact ⟨(h hs).1, (h hs).2.1⟩
  refine ⟨?_, hw.2, by rw [e.1]; exact hp⟩
  rw [arrowNext_index, next_index, e.2.1, if_pos (by omega), if_neg (by simp [hw.2])]

theorem lat_higher {g : Cfg} {s : St} (h : Lat g s) (hp : s.prevInput = 63 ∨ s.prevInput = 65 ∨ s.prevInput = 75) (M : Int) :
    Lat g (moveHigher g s M) := by
  unfold moveHigher
  split
  · exact h
  · rename_i i l he
    intro hl
    obtain ⟨a, b, _, d, e⟩ := nav_index g { s with index := i, latched := l }
    rw [d] at hl
    rw [a, b, e]
    unfold higher at he
    split at he
    · cases he
    · rename_i hnl
      split at he
      · split at he
        · cases he; exact absurd hl hnl
        · rename_i hw
          cases he
          exact ⟨rfl, by simpa using hw, hp⟩
      · split at he <;> cases he <;> exact absurd hl hnl

theorem setTop_latched (s : St) (t : Int) : (setTop s t).latched = s.latched := (core_setTop s t).latched

theorem nav_latched {g : Cfg} {s : St} (h : s.latched = false) : (navigated g s).latched = false := by
  rw [(nav_index g s).2.2.2.1]; exact h

theorem mousePos_latched {g : Cfg} {s : St} (h : s.latched = false) {b : Button} {p0 row revert : Int} {sc : Bool} {r : St}
    (hr : mousePos g s b p0 row revert sc = some r) : r.latched = false := by
  unfold mousePos at hr
  split at hr
  · cases hr; exact h
  · split at hr
    · cases hr
    · cases hr
      refine nav_latched ?_
      unfold hitState
      split
      · rw [setTop_latched]; exact h
      · exact h

theorem mouse_latched {g : Cfg} {s : St} (h : s.latched = false) {b : Button} {p0 p1 speed : Int} {can : Bool} {r : St}
    (hr : mouse g s b p0 p1 can speed = some r) : r.latched = false := by
  unfold mouse at hr
  dsimp only at hr
  have hb : (barState s b p0 p1).latched = false := by unfold barState; split <;> exact h
  generalize barState s b p0 p1 = S at hb hr
  split at hr
  · cases hr
    refine nav_latched ?_
    rw [setTop_latched]; exact hb
  · split at hr
    · exact mousePos_latched hb hr
    · split at hr
      · split at hr
        · split at hr
          · exact mousePos_latched (by rw [setTop_latched]; exact hb) hr
          · cases hr; exact hb
        · cases hr
      · split at hr
        · cases hr
          rw [(core_updateDisplay g _).latched]; exact hb
        · split at hr
          · split at hr
            · exact mousePos_latched (by rw [setTop_latched]; exact hb) hr
            · cases hr; exact hb
          · cases hr; exact hb

theorem Lat.step {g : Cfg} {s : St} (h : Lat g s) (hi : Inv g s) (i : Input) {r : St} (hr : step g s i = some r) : Lat g r := by
  have hb := hi.before i
  have hbi : (before s i).index = s.index ∧ (before s i).count = s.count ∧ (before s i).prevInput = i.id ∧
      ((before s i).latched = true → s.latched = true) := by
    unfold before; dsimp only; split
    · refine ⟨rfl, rfl, rfl, fun hl => ?_⟩
      have hl : (if i.id ≠ 63 ∧ i.id ≠ 65 then false else s.latched) = true := hl
      split at hl
      · cases hl
      · exact hl
    · rename_i hp
      exact ⟨rfl, rfl, Classical.byContradiction hp, fun hl => hl⟩
  have hlb : (i.id = 63 ∨ i.id = 65 ∨ i.id = 75) → Lat g (before s i) := by
    intro hid hl
    obtain ⟨a, b, _⟩ := h (hbi.2.2.2 hl)
    exact ⟨by rw [hbi.1, hbi.2.1]; exact a, b, by rw [hbi.2.2.1]; exact hid⟩
  have hno := fun h1 h2 h3 => lat_before (i := i) h h1 h2 h3
  have hpi := hbi.2.2.1
  generalize hB : before s i = B at hb hbi hlb hno hpi
  have hvis : ∀ {x : Option St}, (if s.count = 0 ∨ s.visibleRows ≤ 0 then none else x) = some r → x = some r := by
    intro x hx
    split at hx
    · cases hx
    · exact hx
  cases i with
  | resize a b c =>
    cases hr
    intro hl
    unfold resize at hl ⊢
    have hk := core_updateDisplay g (updateLayout g { s with screenCols := a, screenRows := b, visBotlin := c, screen := fun _ => .unknown, prevDisplayed := -1 })
    have hp := updateLayout_place g { s with screenCols := a, screenRows := b, visBotlin := c, screen := fun _ => .unknown, prevDisplayed := -1 }
    rw [hk.latched, hp.latched] at hl
    rw [hk.index, hk.count, hk.prevInput, hp.index, hp.prevInput]
    unfold St.count
    rw [hp.it]
    exact h hl
  | next => unfold Menu.step at hr; simp only [hB] at hr; have hx := hvis hr; cases hx; exact lat_false (by rw [(next_flags g B).1]; exact hno (by simp [Input.id]) (by simp [Input.id]) (by simp [Input.id]))
  | prev => unfold Menu.step at hr; simp only [hB] at hr; have hx := hvis hr; cases hx; exact lat_false (nav_latched (hno (by simp [Input.id]) (by simp [Input.id]) (by simp [Input.id])))
  | up =>
    unfold Menu.step at hr; simp only [hB] at hr; have hx := hvis hr; cases hx
    refine lat_false ?_
    unfold Menu.up; split <;> exact nav_latched (hno (by simp [Input.id]) (by simp [Input.id]) (by simp [Input.id]))
  | left =>
    unfold Menu.step at hr; simp only [hB] at hr; have hx := hvis hr; cases hx
    refine lat_false ?_
    unfold Menu.left; split <;> exact nav_latched (hno (by simp [Input.id]) (by simp [Input.id]) (by simp [Input.id]))
  | wheelLeft =>
    unfold Menu.step at hr; simp only [hB] at hr; have hx := hvis hr; cases hx
    refine lat_false ?_
    unfold Menu.left; split <;> exact nav_latched (hno (by simp [Input.id]) (by simp [Input.id]) (by simp [Input.id]))
  | down =>
    unfold Menu.step at hr; simp only [hB] at hr; have hx := hvis hr; cases hx
    unfold Menu.down
    split
    · exact lat_higher (hlb (Or.inl rfl)) (by rw [hpi]; exact Or.inl rfl) _
    · exact lat_arrowNext (hlb (Or.inl rfl)) hb.index1 (by rw [hpi]; exact Or.inl rfl)
  | right =>
    unfold Menu.step at hr; simp only [hB] at hr; have hx := hvis hr; cases hx
    unfold Menu.right
    split
    · exact lat_arrowNext (hlb (Or.inr (Or.inl rfl))) hb.index1 (by rw [hpi]; exact Or.inr (Or.inl rfl))
    · exact lat_higher (hlb (Or.inr (Or.inl rfl))) (by rw [hpi]; exact Or.inr (Or.inl rfl)) _
  | wheelRight =>
    unfold Menu.step at hr; simp only [hB] at hr; have hx := hvis hr; cases hx
    unfold Menu.right
    split
    · exact lat_arrowNext (hlb (Or.inr (Or.inr rfl))) hb.index1 (by rw [hpi]; exact Or.inr (Or.inr rfl))
    · exact lat_higher (hlb (Or.inr (Or.inr rfl))) (by rw [hpi]; exact Or.inr (Or.inr rfl)) _
  | pageUp =>
    unfold Menu.step at hr; simp only [hB] at hr; have hx := hvis hr; cases hx
    refine lat_false ?_
    unfold Menu.pageUp; dsimp only; split <;> exact nav_latched (hno (by simp [Input.id]) (by simp [Input.id]) (by simp [Input.id]))
  | pageDown =>
    unfold Menu.step at hr; simp only [hB] at hr; have hx := hvis hr; cases hx
    refine lat_false ?_
    have hn := hno (by simp [Input.id]) (by simp [Input.id]) (by simp [Input.id])
    have hst : ∀ S t, S.latched = false → (setTop S t).latched = false := fun S t h => by rw [setTop_latched]; exact h
    unfold Menu.pageDown; dsimp only
    repeat' split
    all_goals first
      | (refine nav_latched (hst _ _ ?_); exact hn)
      | exact nav_latched hn
  | first => unfold Menu.step at hr; simp only [hB] at hr; have hx := hvis hr; cases hx; exact lat_false (nav_latched (hno (by simp [Input.id]) (by simp [Input.id]) (by simp [Input.id])))
  | last =>
    unfold Menu.step at hr; simp only [hB] at hr; have hx := hvis hr; cases hx
    exact lat_false (nav_latched (by rw [setTop_latched]; exact hno (by simp [Input.id]) (by simp [Input.id]) (by simp [Input.id])))
  | mouse b p0 p1 can speed =>
    unfold Menu.step at hr; simp only [hB] at hr
    exact lat_false (mouse_latched (hno (by cases b <;> simp [Input.id]) (by cases b <;> simp [Input.id]) (by cases b <;> simp [Input.id])) (hvis hr))
  | wheelUp n =>
    unfold Menu.step at hr; simp only [hB] at hr; have hx := hvis hr; cases hx
    refine lat_false ?_
    unfold Menu.wheelUp; dsimp only; split
    · rw [(core_updateDisplay g _).latched]; exact hno (by simp [Input.id]) (by simp [Input.id]) (by simp [Input.id])
    · exact hno (by simp [Input.id]) (by simp [Input.id]) (by simp [Input.id])
  | wheelDown n =>
    unfold Menu.step at hr; simp only [hB] at hr; have hx := hvis hr; cases hx
    refine lat_false ?_
    have hw : ∀ j, (wheelState g B j).latched = false := by
      intro j
      have hn := hno (by simp [Input.id]) (by simp [Input.id]) (by simp [Input.id])
      unfold wheelState; dsimp only; split
      · split
        · rw [setTop_latched]; exact hn
        · exact hn
      · exact hn
    unfold Menu.wheelDown; dsimp only; split
    · rw [(core_updateDisplay g _).latched]; exact hw _
    · exact hw _
  | f1 =>
    unfold Menu.step at hr; simp only [hB] at hr; have hx := hvis hr; cases hx
    refine lat_false ?_
    have hn := hno (by simp [Input.id]) (by simp [Input.id]) (by simp [Input.id])
    unfold Menu.f1; split
    · dsimp only
      rw [(core_updateDisplay g _).latched]
      show (setTop _ _).latched = false
      rw [setTop_latched, (updateLayout_place g _).latched]; exact hn
    · exact hn
  | typed it =>
    unfold Menu.step at hr; simp only [hB] at hr; have hx := hvis hr
    refine lat_false ?_
    have hn := hno (by simp [Input.id]) (by simp [Input.id]) (by simp [Input.id])
    unfold Menu.typed at hx
    dsimp only at hx
    split at hx
    · cases hx
    · cases hx
      rw [(insert_line g _).2.1, (core_updateDisplay g _).latched, (updateLayout_place g _).latched]; exact hn
  | close => unfold Menu.step at hr; simp only at hr; have hx := hvis hr; cases hx

/-! The line -/

theorem nav_line (g : Cfg) (s : St) : (navigated g s).line = (navigated g s).index := by
  obtain ⟨a, _, b, _⟩ := nav_index g s
  rw [a, b]

theorem mousePos_line {g : Cfg} {s : St} (h : s.line = s.index) {b : Button} {p0 row revert : Int} {sc : Bool} {r : St}
    (hr : mousePos g s b p0 row revert sc = some r) : r.line = r.index := by
  unfold mousePos at hr
  split at hr
  · cases hr; exact h
  · split at hr
    · cases hr
    · cases hr; exact nav_line ..

theorem setTop_line {s : St} {t : Int} (h : s.line = s.index) : (setTop s t).line = (setTop s t).index := by
  rw [(core_setTop s t).line, (core_setTop s t).index]; exact h

theorem display_line {g : Cfg} {s : St} (h : s.line = s.index) : (updateDisplay g s).line = (updateDisplay g s).index := by
  rw [(core_updateDisplay g s).line, (core_updateDisplay g s).index]; exact h

theorem mouse_line {g : Cfg} {s : St} (h : s.line = s.index) {b : Button} {p0 p1 speed : Int} {can : Bool} {r : St}
    (hr : mouse g s b p0 p1 can speed = some r) : r.line = r.index := by
  unfold mouse at hr
  dsimp only at hr
  have hb : (barState s b p0 p1).line = (barState s b p0 p1).index := by unfold barState; split <;> exact h
  generalize barState s b p0 p1 = S at hb hr
  split at hr
  · cases hr; exact nav_line ..
  · split at hr
    · exact mousePos_line hb hr
    · split at hr
      · split at hr
        · split at hr
          · exact mousePos_line (setTop_line hb) hr
          · cases hr; exact hb
        · cases hr
      · split at hr
        · cases hr
          exact display_line hb
        · split at hr
          · split at hr
            · exact mousePos_line (setTop_line hb) hr
            · cases hr; exact hb
          · cases hr; exact hb

theorem next_line (g : Cfg) (s : St) : (next g s).line = (next g s).index := nav_line ..
theorem arrowNext_line (g : Cfg) (s : St) : (arrowNext g s).line = (arrowNext g s).index := next_line ..

theorem higher_line {g : Cfg} {s : St} (h : s.line = s.index) (M : Int) : (moveHigher g s M).line = (moveHigher g s M).index := by
  unfold moveHigher
  split
  · exact h
  · exact nav_line ..

theorem step_line {g : Cfg} {s : St} (h : s.line = s.index) (i : Input) (hw : ∀ n, i ≠ .wheelUp n ∧ i ≠ .wheelDown n) {r : St}
    (hr : step g s i = some r) : r.line = r.index := by
  have hb : (before s i).line = (before s i).index := by
    unfold before; dsimp only; split <;> exact h
  generalize hB : before s i = B at hb
  have hvis : ∀ {x : Option St}, (if s.count = 0 ∨ s.visibleRows ≤ 0 then none else x) = some r → x = some r := by
    intro x hx
    split at hx
    · cases hx
    · exact hx
  cases i with
  | resize a b c =>
    cases hr
    unfold resize
    refine display_line ?_
    have hp := updateLayout_place g { s with screenCols := a, screenRows := b, visBotlin := c, screen := fun _ => .unknown, prevDisplayed := -1 }
    rw [hp.line, hp.index]; exact h
  | next => unfold step at hr; simp only [hB] at hr; have hx := hvis hr; cases hx; exact nav_line ..
  | prev => unfold step at hr; simp only [hB] at hr; have hx := hvis hr; cases hx; exact nav_line ..
  | up =>
    unfold step at hr; simp only [hB] at hr; have hx := hvis hr; cases hx
    unfold up; split <;> exact nav_line ..
  | left =>
    unfold step at hr; simp only [hB] at hr; have hx := hvis hr; cases hx
    unfold left; split <;> exact nav_line ..
  | wheelLeft =>
    unfold step at hr; simp only [hB] at hr; have hx := hvis hr; cases hx
    unfold left; split <;> exact nav_line ..
  | down =>
    unfold step at hr; simp only [hB] at hr; have hx := hvis hr; cases hx
    unfold down; split
    · exact higher_line hb _
    · exact arrowNext_line ..
  | right =>
    unfold step at hr; simp only [hB] at hr; have hx := hvis hr; cases hx
    unfold right; split
    · exact arrowNext_line ..
    · exact higher_line hb _
  | wheelRight =>
    unfold step at hr; simp only [hB] at hr; have hx := hvis hr; cases hx
    unfold right; split
    · exact arrowNext_line ..
    · exact higher_line hb _
  | pageUp =>
    unfold step at hr; simp only [hB] at hr; have hx := hvis hr; cases hx
    unfold pageUp; dsimp only; split <;> exact nav_line ..
  | pageDown =>
    unfold step at hr; simp only [hB] at hr; have hx := hvis hr; cases hx
    unfold pageDown; dsimp only
    repeat' split
    all_goals exact nav_line ..
  | first => unfold step at hr; simp only [hB] at hr; have hx := hvis hr; cases hx; exact nav_line ..
  | last => unfold step at hr; simp only [hB] at hr; have hx := hvis hr; cases hx; exact nav_line ..
  | mouse b p0 p1 can speed =>
    unfold step at hr; simp only [hB] at hr
    exact mouse_line hb (hvis hr)
  | wheelUp n => exact absurd rfl (hw n).1
  | wheelDown n => exact absurd rfl (hw n).2
  | f1 =>
    unfold step at hr; simp only [hB] at hr; have hx := hvis hr; cases hx
    unfold f1; split
    · dsimp only
      refine display_line ?_
      refine setTop_line ?_
      have hp := updateLayout_place g { B with descBelow := !B.descBelow, calcWidths := true }
      rw [hp.line, hp.index]; exact hb
    · exact hb
  | typed it =>
    unfold step at hr; simp only [hB] at hr; have hx := hvis hr
    unfold typed at hx
    dsimp only at hx
    split at hx
    · cases hx
    · cases hx
      rw [(insert_line g _).1, (insert_index g _).1]
  | close => unfold step at hr; simp only at hr; have hx := hvis hr; cases hx

end Clink.Menu
