import Verif.Proof.MenuInv

/-!
Every input keeps the selected match valid and on the screen.
-/

namespace Clink.Menu
open Spec

theorem shrink_spec {count major index : Int} (hm : 1 ≤ major) (hc : major ≤ count) (hi : 0 ≤ index) :
    0 ≤ shrink count major index ∧ shrink count major index < count ∧
      (∃ k : Int, 0 ≤ k ∧ shrink count major index = index - k * major) ∧
      (shrink count major index = index ∨ count ≤ shrink count major index + major) := by
  fun_induction shrink count major index with
  | case1 index h => exact ⟨hi, by omega, ⟨0, by omega, by omega⟩, Or.inl rfl⟩
  | case2 index h ih =>
    obtain ⟨a, b, ⟨k, hk, e⟩, d⟩ := ih (by omega)
    refine ⟨a, b, ⟨k + 1, by omega, by rw [e, Int.add_mul]; omega⟩, Or.inr ?_⟩
    rcases d with d | d
    · rw [d]; omega
    · exact d

theorem lower_range {wrap : Bool} {index M N count : Int} (hM : 1 ≤ M) (hc : M ≤ count) (hN : count ≤ M * N) (h0 : 0 ≤ index)
    (h1 : index < count) : 0 ≤ lower wrap index M N count ∧ lower wrap index M N count < count := by
  unfold lower
  have hN1 : 1 ≤ N := by
    by_cases h : 1 ≤ N
    · exact h
    · have := Int.mul_le_mul_of_nonneg_left (by omega : N ≤ 0) (by omega : 0 ≤ M); omega
  have hMN : M ≤ M * N := by have := Int.mul_le_mul_of_nonneg_left hN1 (by omega : 0 ≤ M); omega
  split
  · split
    · have := shrink_spec hM hc (index := index - 1 + M * N) (by omega); exact ⟨this.1, this.2.1⟩
    · exact ⟨h0, h1⟩
  · split
    · have := shrink_spec hM hc (index := index - M - 1 + M * N) (by omega); exact ⟨this.1, this.2.1⟩
    · omega

theorem higher_range {wrap : Bool} {index M count : Int} {l : Bool} {r : Int × Bool} (hM : 1 ≤ M) (hc : M ≤ count) (h0 : 0 ≤ index)
    (h : higher wrap index M count l = some r) : 0 ≤ r.1 ∧ r.1 < count := by
  unfold higher at h
  split at h
  · cases h
  · split at h
    · split at h <;> cases h
      · exact ⟨by show (0 : Int) ≤ 0; omega, by show (0 : Int) < count; omega⟩
      · exact ⟨by show 0 ≤ count - 1; omega, by show count - 1 < count; omega⟩
    · split at h <;> cases h
      · rw [Int.tmod_eq_emod_of_nonneg (by omega)]
        have a := Int.emod_nonneg (index + M + 1) (by omega : M ≠ 0)
        have b := Int.emod_lt_of_pos (index + M + 1) (by omega : 0 < M)
        exact ⟨a, by omega⟩
      · exact ⟨by show 0 ≤ index + M; omega, by show index + M < count; omega⟩

theorem Inv.next {g : Cfg} {s : St} (h : Inv g s) : Inv g (next g s) := by
  have := h.grid.count
  have := h.index0
  have := h.index1
  unfold Menu.next
  dsimp only
  refine Ready.nav (h.ready.index (l := s.latched) ?_ ?_)
  · split
    · split <;> omega
    · omega
  · split
    · split <;> omega
    · omega

theorem Inv.prev {g : Cfg} {s : St} (h : Inv g s) : Inv g (prev g s) := by
  have := h.grid.count
  have := h.index0
  have := h.index1
  unfold Menu.prev
  dsimp only
  refine Ready.nav (h.ready.index (l := s.latched) ?_ ?_)
  · split
    · split <;> omega
    · omega
  · split
    · split <;> omega
    · omega

/-- Fields that do not matter for the invariant. -/
theorem Inv.flags {g : Cfg} {s : St} (h : Inv g s) (i l : Bool) (p : Nat) (b : Bool) :
    Inv g { s with ignoreOfs := i, latched := l, prevInput := p, barClicked := b } := by
  obtain ⟨a1, a2, a3, a4, a5, a6, a7, a8, a9, a10, a11, a12⟩ := h
  exact ⟨a1, ⟨a2.count, a2.cols, a2.rows, a2.few⟩, a3, a4, a5, a6, a7, a8, a9, a10, a11, a12⟩

theorem Inv.before {g : Cfg} {s : St} (h : Inv g s) (i : Input) : Inv g (before s i) := by
  unfold Menu.before
  dsimp only
  split
  · exact h.flags false _ _ s.barClicked
  · exact h.flags false s.latched s.prevInput s.barClicked

theorem Inv.moveHigher {g : Cfg} {s : St} (h : Inv g s) {M : Int} (hM : 1 ≤ M) (hc : M ≤ s.count) : Inv g (moveHigher g s M) := by
  unfold Menu.moveHigher
  split
  · exact h
  · rename_i i l he
    have := higher_range hM hc h.index0 he
    exact Ready.nav (h.ready.index this.1 this.2)

theorem Inv.arrowNext {g : Cfg} {s : St} (h : Inv g s) : Inv g (arrowNext g s) := by
  unfold Menu.arrowNext
  apply Inv.next
  split
  · exact h.flags s.ignoreOfs true s.prevInput s.barClicked
  · exact h

theorem Inv.sizes {g : Cfg} {s : St} (h : Inv g s) :
    s.count ≤ s.matchRows * s.matchCols ∧ (s.matchRows - 1) * s.matchCols < s.count ∧ 1 ≤ s.matchRows ∧ s.matchRows ≤ s.count := by
  obtain ⟨f1, f2, f3, f4, f5⟩ := h.grid.fits
  have := rows_le_count h.grid
  exact ⟨f4, f5, this.1, this.2⟩

theorem Inv.up {g : Cfg} {s : St} (h : Inv g s) : Inv g (up g s) := by
  unfold Menu.up
  split
  · rename_i hh
    have hz := h.sizes
    have := lower_range (wrap := g.wrap) (N := s.matchRows) h.grid.cols (h.grid.few hh) (by rw [Int.mul_comm]; exact hz.1) h.index0 h.index1
    exact Ready.nav (h.ready.index (l := s.latched) this.1 this.2)
  · exact h.prev

theorem Inv.left {g : Cfg} {s : St} (h : Inv g s) : Inv g (left g s) := by
  unfold Menu.left
  split
  · exact h.prev
  · have hz := h.sizes
    have := lower_range (wrap := g.wrap) (N := s.matchCols) hz.2.2.1 hz.2.2.2 hz.1 h.index0 h.index1
    exact Ready.nav (h.ready.index (l := s.latched) this.1 this.2)

theorem Inv.down {g : Cfg} {s : St} (h : Inv g s) : Inv g (down g s) := by
  unfold Menu.down
  split
  · rename_i hh; exact h.moveHigher h.grid.cols (h.grid.few hh)
  · exact h.arrowNext

theorem Inv.right {g : Cfg} {s : St} (h : Inv g s) : Inv g (right g s) := by
  unfold Menu.right
  split
  · exact h.arrowNext
  · exact h.moveHigher h.sizes.2.2.1 h.sizes.2.2.2

/-- A page is not empty. -/
theorem Inv.page {g : Cfg} {s : St} (h : Inv g s) (hv : 0 < s.visibleRows) :
    0 ≤ scrollOfs g s ∧ 0 ≤ min s.matchRows s.visibleRows - scrollOfs g s - 1 ∧
      (2 ≤ s.matchRows → 1 ≤ min s.matchRows s.visibleRows - scrollOfs g s - 1) := by
  have hd := h.disp hv
  have ho := scrollOfs_range g s hd.1
  have := h.room
  omega

theorem major_pos {g : Cfg} {s : St} (h : GridOk g s) : 1 ≤ major g s := by
  unfold major; have := h.cols; split <;> omega

/-- The index after going to row `y'` in the same column, upwards. -/
theorem row_up {g : Cfg} {s : St} (h : GridOk g s) {i y' : Int} (h0 : 0 ≤ i) (h1 : i < s.count) (hy0 : 0 ≤ y') (hy : y' ≤ rowOf g s i) :
    0 ≤ i + (y' - rowOf g s i) * major g s ∧ i + (y' - rowOf g s i) * major g s < s.count := by
  have hr := rowOf_range h h0 h1
  have := rowOf_add h h0 h1 (k := y' - rowOf g s i) (by omega) (by omega)
  refine ⟨this.1, ?_⟩
  have hm := Int.mul_le_mul_of_nonneg_right (by omega : y' - rowOf g s i ≤ 0) (by have := major_pos h; omega : 0 ≤ major g s)
  omega

/-- Every row but the last is full in a horizontal list. -/
theorem row_full {g : Cfg} {s : St} (h : GridOk g s) (hh : g.horizontal = true) {i : Int} (h0 : 0 ≤ i) (hr : rowOf g s i ≤ s.matchRows - 2) :
    i < s.count := by
  obtain ⟨f1, f2, f3, f4, f5⟩ := h.fits
  simp only [gridOf] at f1 f2 f3 f4 f5
  rw [rowOf_eq h0] at hr
  unfold Grid.rowI gridOf at hr
  dsimp only at hr
  rw [if_pos hh] at hr
  have d := Int.ediv_mul_add_emod i s.matchCols
  have m := Int.emod_lt_of_pos i (by omega : 0 < s.matchCols)
  have := Int.mul_le_mul_of_nonneg_right (by omega : i / s.matchCols + 1 ≤ s.matchRows - 1) (by omega : 0 ≤ s.matchCols)
  rw [Int.add_mul] at this
  omega

theorem Inv.pageUp {g : Cfg} {s : St} (h : Inv g s) (hv : 0 < s.visibleRows) : Inv g (pageUp g s) := by
  have hr := rowOf_range h.grid h.index0 h.index1
  have hp := h.page hv
  have hc := h.grid.count
  have ht := h.top
  unfold Menu.pageUp
  dsimp only
  split
  · exact Ready.nav (h.ready.index (l := s.latched) (by omega) (by omega))
  · have := row_up h.grid h.index0 h.index1
      (y' := max 0 (if rowOf g s s.index ≤ s.top + scrollOfs g s then rowOf g s s.index - (min s.matchRows s.visibleRows - scrollOfs g s - 1)
        else s.top + scrollOfs g s)) (by omega) (by split <;> omega)
    exact Ready.nav (h.ready.index (l := s.latched) this.1 this.2)

/-- Where PgDn goes. -/
def downY (g : Cfg) (s : St) : Int :=
  min (s.matchRows - 1) (if rowOf g s s.index ≥ s.top + (min s.matchRows s.visibleRows - scrollOfs g s - 1)
    then rowOf g s s.index + (min s.matchRows s.visibleRows - scrollOfs g s - 1)
    else s.top + (min s.matchRows s.visibleRows - scrollOfs g s - 1))

theorem Inv.downY {g : Cfg} {s : St} (h : Inv g s) (hv : 0 < s.visibleRows) (hy : rowOf g s s.index ≠ s.matchRows - 1) :
    rowOf g s s.index < downY g s ∧ downY g s ≤ s.matchRows - 1 := by
  have hr := rowOf_range h.grid h.index0 h.index1
  have hp := h.page hv
  have ht := h.top
  unfold Menu.downY
  split <;> omega

theorem Inv.pageDown {g : Cfg} {s : St} (h : Inv g s) (hv : 0 < s.visibleRows) : Inv g (pageDown g s) := by
  have hr := rowOf_range h.grid h.index0 h.index1
  have hc := h.grid.count
  unfold Menu.pageDown
  dsimp only
  split
  · exact Ready.nav (h.ready.index (l := s.latched) (by omega) (by omega))
  · rename_i hy
    have hd := h.downY hv hy
    generalize hY : Menu.downY g s = Y at hd
    unfold Menu.downY at hY
    rw [hY]
    have ha := rowOf_add h.grid h.index0 h.index1 (k := Y - rowOf g s s.index) (by omega) (by omega)
    split
    · split
      · rename_i hh
        refine Ready.nav (Ready.setTop (h.ready.index (l := s.latched) ?_ ?_) (by omega))
        · split
          · have := rowOf_add h.grid h.index0 h.index1 (k := Y - rowOf g s s.index - 1) (by omega) (by omega)
            rw [Int.sub_mul _ 1] at this; omega
          · omega
        · split
          · have := rowOf_add h.grid h.index0 h.index1 (k := Y - rowOf g s s.index - 1) (by omega) (by omega)
            have hf := row_full h.grid hh this.1 (by omega)
            rw [Int.sub_mul _ 1] at hf; omega
          · omega
      · exact Ready.nav (Ready.setTop (h.ready.index (l := s.latched) (by omega) (by omega)) (by omega))
    · exact Ready.nav (Ready.setTop (h.ready.index (l := s.latched) ha.1 (by omega)) (by omega))

theorem Inv.last {g : Cfg} {s : St} (h : Inv g s) : Inv g (last g s) := by
  have hc := h.grid.count
  unfold Menu.last
  dsimp only
  exact Ready.nav (Ready.setTop (h.ready.index (l := s.latched) (by omega) (by omega)) (by omega))

/-- A column is found. -/
theorem hitColumn_some {screenCols pad minor p0 : Int} (hp : 0 ≤ pad) (h0 : p0 < screenCols) :
    ∀ (l : List Int) (x i : Int), l ≠ [] → (∀ w ∈ l, 0 ≤ w) → 0 ≤ x → x ≤ p0 → ∃ j, hitColumn screenCols pad minor true p0 l x i = some j := by
  intro l
  induction l with
  | nil => intro x i h; exact absurd rfl h
  | cons w ws ih =>
    intro x i _ hw hx hp0
    rw [hitColumn]
    have hw0 := hw w (List.mem_cons_self ..)
    by_cases hws : ws = []
    · subst hws
      have hcond : p0 ≥ x ∧ p0 < x + (w + screenCols) := by omega
      simp only [List.isEmpty_nil, if_true]
      rw [if_pos hcond]; exact ⟨_, rfl⟩
    · have : ws.isEmpty = false := by cases ws with
        | nil => exact absurd rfl hws
        | cons => rfl
      rw [this]
      simp only [Bool.false_eq_true, if_false, if_true]
      split
      · exact ⟨_, rfl⟩
      · exact ih (x + w + pad) (i + minor) hws (fun v hv => hw v (List.mem_cons_of_mem _ hv)) (by omega) (by omega)

theorem hitColumn_ge {screenCols pad minor p0 : Int} {sc : Bool} (hm : 0 ≤ minor) :
    ∀ (l : List Int) (x i j : Int), hitColumn screenCols pad minor sc p0 l x i = some j → i ≤ j := by
  intro l
  induction l with
  | nil => intro x i j h; cases h
  | cons w ws ih =>
    intro x i j h
    rw [hitColumn] at h
    generalize hcw : (if ws.isEmpty = true then w + screenCols else if sc = true then w + pad else w) = cw at h
    by_cases hc : p0 ≥ x ∧ p0 < x + cw
    · rw [if_pos hc] at h; cases h; omega
    · rw [if_neg hc] at h
      have := ih _ _ _ h; omega

/-- The state when a match has been hit. -/
theorem Ready.mouseHit {g : Cfg} {s : St} (h : Ready g s) {b : Button} {p0 row revert : Int} {sc : Bool} (hrow : 0 ≤ row) (hrev : 0 ≤ revert)
    {r : St} (hh : ∃ i, hitColumn s.screenCols s.widths.padding (minor g s) sc p0 s.widths.list 0 (major g s * row) = some i)
    (hm : mousePos g s b p0 row revert sc = some r) : Inv g r := by
  obtain ⟨i, hi⟩ := hh
  unfold mousePos at hm
  rw [hi] at hm
  dsimp only at hm
  have hc := h.grid.count
  have hn := minor_nonneg h.grid
  have hi0 : 0 ≤ i := by
    have := hitColumn_ge hn _ _ _ _ hi
    have := Int.mul_nonneg (by have := major_pos h.grid; omega : 0 ≤ major g s) hrow
    omega
  have h' : ∀ k, 0 ≤ k → k < s.count → Ready g { s with index := k, ignoreOfs := true } := by
    intro k k0 k1
    obtain ⟨a, b, c, d, e, f, _, j, k⟩ := h
    exact ⟨a, ⟨b.count, b.cols, b.rows, b.few⟩, c, d, e, k0, k1, j, k⟩
  split at hm
  · cases hm
  · cases hm
    refine Ready.nav ?_
    unfold hitState
    split
    · exact (h' (s.count - 1) (by omega) (by omega)).setTop (by omega)
    · exact h' i hi0 (by omega)

/-- The bar. -/
theorem hittest_range {row rows total : Int} (h0 : 0 ≤ row) (h1 : row ≤ rows - 1) (ht : 1 ≤ total) :
    0 ≤ hittest row rows total ∧ hittest row rows total ≤ total - 1 := by
  unfold hittest
  split
  · omega
  · have hp := Int.mul_nonneg h0 (by omega : 0 ≤ total - 1)
    rw [Int.tdiv_eq_ediv_of_nonneg hp]
    refine ⟨Int.ediv_nonneg hp (by omega), ?_⟩
    have := Int.mul_le_mul_of_nonneg_right h1 (by omega : 0 ≤ total - 1)
    have := Int.ediv_le_ediv (by omega : 0 < rows - 1) this
    rw [Int.mul_ediv_cancel_left _ (by omega : rows - 1 ≠ 0)] at this
    omega

/-- The first match of a row. -/
theorem first_in_row {g : Cfg} {s : St} (h : GridOk g s) {r : Int} (h0 : 0 ≤ r) (h1 : r ≤ s.matchRows - 1) :
    0 ≤ r * major g s ∧ r * major g s < s.count := by
  have hm := major_pos h
  refine ⟨Int.mul_nonneg h0 (by omega), ?_⟩
  obtain ⟨f1, f2, f3, f4, f5⟩ := h.fits
  simp only [gridOf] at f5
  have hr := rows_le_count h
  unfold major
  split
  · have := Int.mul_le_mul_of_nonneg_right h1 (by have := h.cols; omega : 0 ≤ s.matchCols)
    omega
  · omega

theorem Inv.mouse {g : Cfg} {s : St} (h : Inv g s) (hv : 0 < s.visibleRows) {b : Button} {p0 p1 speed : Int} {can : Bool}
    (hp0 : 0 ≤ p0) (hp1 : p0 < s.screenCols) (hsp : 0 ≤ speed) {r : St} (hm : mouse g s b p0 p1 can speed = some r) : Inv g r := by
  unfold Menu.mouse at hm
  dsimp only at hm
  generalize hs' : barState s b p0 p1 = s' at hm
  have hi : Inv g s' ∧ s'.visibleRows = s.visibleRows ∧ s'.displayedRows = s.displayedRows ∧ s'.screenCols = s.screenCols := by
    subst hs'
    unfold barState
    split
    · exact ⟨h.flags s.ignoreOfs s.latched s.prevInput _, rfl, rfl, rfl⟩
    · exact ⟨h, rfl, rfl, rfl⟩
  obtain ⟨hi, ev, ed, ec⟩ := hi
  rw [← ev] at hv
  rw [← ec] at hp1
  clear hs' ev ed ec h
  have hd := hi.disp hv
  have ht := hi.top
  have hz := hi.sizes
  have hit : ∀ (t row : Int) (r : St), 0 ≤ t → 0 ≤ row → mousePos g (setTop s' t) b p0 row s'.top true = some r → Inv g r := by
    intro t row r ht' hrow hm
    have hr := hi.ready.setTop ht'
    refine hr.mouseHit hrow hi.top ?_ hm
    obtain ⟨x, y, e⟩ := hr.widths
    refine hitColumn_some ?_ (by rw [(core_setTop s' t).screenCols]; exact hp1) _ _ _ ?_ ?_ (by omega) hp0
    · rw [e]; exact hr.items.padding x y
    · rw [e]; exact hr.items.some x y
    · rw [e]; exact hr.items.widths x y
  split at hm
  · cases hm
    have hh := hittest_range (row := min (max p1 0) (s'.displayedRows - 1)) (rows := s'.displayedRows) (total := s'.matchRows)
      (by omega) (by omega) (by omega)
    have hf := first_in_row hi.grid hh.1 hh.2
    exact Ready.nav (Ready.setTop (hi.ready.index (l := s'.latched) hf.1 hf.2) (by omega))
  · split at hm
    · rename_i hp
      by_cases hs : ∃ i, hitColumn s'.screenCols s'.widths.padding (minor g s') false p0 s'.widths.list 0 (major g s' * (p1 + s'.top)) = some i
      · exact hi.ready.mouseHit (by omega) hi.top hs hm
      · unfold mousePos at hm
        cases hx : hitColumn s'.screenCols s'.widths.padding (minor g s') false p0 s'.widths.list 0 (major g s' * (p1 + s'.top)) with
        | some i => exact absurd ⟨i, hx⟩ hs
        | none => rw [hx] at hm; cases hm; exact hi
    · split at hm
      · split at hm
        · split at hm
          · refine hit _ _ _ (by omega) ?_ hm
            rw [setTop_top]; omega
          · cases hm; exact hi
        · cases hm
      · split at hm
        · cases hm
          refine Ready.display ?_
          obtain ⟨a, b, c, d, e, f, i, j, k⟩ := hi.ready
          exact ⟨a, ⟨b.count, b.cols, b.rows, b.few⟩, c, d, e, f, i, j, k⟩
        · split at hm
          · split at hm
            · rename_i hcond
              exact hit _ _ _ (by omega) (by omega) hm
            · cases hm; exact hi
          · cases hm; exact hi

theorem Inv.wheelUp {g : Cfg} {s : St} (h : Inv g s) (n : Nat) : Inv g (wheelUp g s n) := by
  have hr := rowOf_range h.grid h.index0 h.index1
  unfold Menu.wheelUp
  dsimp only
  split
  · have := row_up h.grid h.index0 h.index1 (y' := rowOf g s s.index - min (rowOf g s s.index) n) (by omega) (by omega)
    rw [show rowOf g s s.index - min (rowOf g s s.index) n - rowOf g s s.index = -(min (rowOf g s s.index) n) by omega, Int.neg_mul,
      ← Int.sub_eq_add_neg] at this
    exact Ready.display (h.ready.index (l := s.latched) this.1 this.2)
  · exact h

theorem setTop_same {s : St} {t : Int} (h : (setTop s t).top = s.top) : setTop s t = s := by
  unfold setTop at h ⊢
  split
  · rename_i hc; rw [if_pos hc] at h; exact absurd h hc
  · rfl

theorem wheelState_same {g : Cfg} {s : St} {i : Int} (h : (wheelState g s i).index = s.index) (ht : (wheelState g s i).top = s.top) :
    wheelState g s i = s := by
  have key : ∀ j, j = s.index → ({ s with index := j } : St) = s := fun j e => by rw [e]
  unfold wheelState at h ht ⊢
  dsimp only at h ht ⊢
  split
  · rename_i h1
    rw [if_pos h1] at h ht
    split
    · rename_i h2
      rw [if_pos h2] at h ht
      rw [setTop_same ht]
      rw [(core_setTop _ _).index] at h
      exact key _ h
    · rename_i h2
      rw [if_neg h2] at h
      exact key _ h
  · rename_i h1
    rw [if_neg h1] at h
    exact key _ h

theorem Inv.wheelDown {g : Cfg} {s : St} (h : Inv g s) (n : Nat) : Inv g (wheelDown g s n) := by
  have hr := rowOf_range h.grid h.index0 h.index1
  have hc := h.grid.count
  have ha := rowOf_add h.grid h.index0 h.index1 (k := min (s.matchRows - 1 - rowOf g s s.index) n) (by omega) (by omega)
  have ht := h.top
  unfold Menu.wheelDown
  dsimp only
  have hw : Ready g (wheelState g s (s.index + min (s.matchRows - 1 - rowOf g s s.index) ↑n * major g s)) := by
    unfold wheelState
    dsimp only
    split
    · split
      · exact (h.ready.index (l := s.latched) (by omega) (by omega)).setTop (by omega)
      · exact h.ready.index (l := s.latched) (by omega) (by omega)
    · exact h.ready.index (l := s.latched) ha.1 (by omega)
  split
  · exact hw.display
  · rename_i hc
    rw [wheelState_same]
    · exact h
    · exact Classical.byContradiction fun e => hc (Or.inl e)
    · exact Classical.byContradiction fun e => hc (Or.inr e)

theorem Ready.layout {g : Cfg} {s : St} (hi : ItemsOk g s.it) (hw : s.calcWidths = true ∨ WidthsOk s) (h0 : 0 ≤ s.index)
    (h1 : s.index < s.count) (ht : 0 ≤ s.top) : Ready g (updateLayout g s) := by
  obtain ⟨p, q, r, t, u, _, w⟩ := updateLayout_spec g s hi hw
  refine ⟨by rw [p.it]; exact hi, q, r, t, w, by rw [p.index]; exact h0, ?_, by rw [p.top]; exact ht, by omega⟩
  rw [p.index]; unfold St.count; rw [p.it]; exact h1

theorem Inv.f1 {g : Cfg} {s : St} (h : Inv g s) : Inv g (f1 g s) := by
  unfold Menu.f1
  split
  · dsimp only
    have hr := Ready.layout (g := g) (s := { s with descBelow := !s.descBelow, calcWidths := true }) h.items (Or.inl rfl) h.index0 h.index1 h.top
    refine Ready.display ?_
    have := hr.setTop (t := if max 0 (rowOf g (updateLayout g { s with descBelow := !s.descBelow, calcWidths := true })
        (updateLayout g { s with descBelow := !s.descBelow, calcWidths := true }).index - (rowOf g s s.index - s.top)) >
        max 0 ((updateLayout g { s with descBelow := !s.descBelow, calcWidths := true }).matchRows -
          (updateLayout g { s with descBelow := !s.descBelow, calcWidths := true }).visibleRows) then
        max 0 ((updateLayout g { s with descBelow := !s.descBelow, calcWidths := true }).matchRows -
          (updateLayout g { s with descBelow := !s.descBelow, calcWidths := true }).visibleRows)
        else max 0 (rowOf g (updateLayout g { s with descBelow := !s.descBelow, calcWidths := true })
        (updateLayout g { s with descBelow := !s.descBelow, calcWidths := true }).index - (rowOf g s s.index - s.top))) (by split <;> omega)
    obtain ⟨a, b, c, d, e, f, i, j, k⟩ := this
    exact ⟨a, ⟨b.count, b.cols, b.rows, b.few⟩, c, d, e, f, i, j, k⟩
  · exact h

theorem Inv.resize {g : Cfg} {s : St} (h : Inv g s) (c r b : Int) : Inv g (resize g s c r b) := by
  unfold Menu.resize
  exact Ready.display (Ready.layout (s := { s with screenCols := c, screenRows := r, visBotlin := b, screen := fun _ => .unknown, prevDisplayed := -1 })
    h.items (Or.inr h.widths) h.index0 h.index1 h.top)

theorem insertMatch_same {g : Cfg} {s : St} (h : s.it.botlin s.index = s.visBotlin) :
    insertMatch g s = { s with line := s.index } := by
  unfold insertMatch
  dsimp only
  rw [h, if_neg (by simp)]

theorem Inv.line {g : Cfg} {s : St} (h : Inv g s) (l : Int) : Inv g { s with line := l } := by
  obtain ⟨a1, a2, a3, a4, a5, a6, a7, a8, a9, a10, a11, a12⟩ := h
  exact ⟨a1, ⟨a2.count, a2.cols, a2.rows, a2.few⟩, a3, a4, a5, a6, a7, a8, a9, a10, a11, a12⟩

theorem Inv.typed {g : Cfg} {s : St} (it : Items) (hi : 1 ≤ it.count → ItemsOk g it) (hb : it.botlin 0 = s.visBotlin)
    {r : St} (hr : typed g s it = some r) : Inv g r := by
  unfold Menu.typed at hr
  dsimp only at hr
  split at hr
  · cases hr
  · rename_i hc
    cases hr
    have hi := hi (by omega)
    generalize hx : ({ resetTop s with it := it, clearDisplay := (resetTop s).anyDisplayed, calcWidths := true, ignoreOfs := false } : St) = x
    have e1 : x.it = it ∧ x.index = 0 ∧ x.top = 0 ∧ x.calcWidths = true ∧ x.visBotlin = s.visBotlin := by
      subst hx; exact ⟨rfl, rfl, rfl, rfl, rfl⟩
    have hcx : (0 : Int) < x.count := by unfold St.count; rw [e1.1]; omega
    have hl := Ready.layout (g := g) (s := x) (by rw [e1.1]; exact hi) (Or.inl e1.2.2.2.1) (by omega) (by omega) (by omega)
    have hd := hl.display
    have hp := (updateLayout_spec g x (by rw [e1.1]; exact hi) (Or.inl e1.2.2.2.1)).1
    have hcd := core_updateDisplay g (updateLayout g x)
    rw [insertMatch_same]
    · exact hd.line _
    · rw [hcd.it, hcd.index, hcd.botlin, hp.it, hp.index, hp.botlin, e1.1, e1.2.1, e1.2.2.2.2, hb]

theorem Inv.step {g : Cfg} {s : St} (h : Inv g s) (i : Input) (hv : Valid g s i) {r : St} (hr : step g s i = some r) : Inv g r := by
  by_cases hz : ∃ a b c, i = .resize a b c
  · obtain ⟨a, b, c, rfl⟩ := hz
    cases hr
    exact h.resize a b c
  · have hb := h.before i
    have hbv : (Menu.before s i).visibleRows = s.visibleRows ∧ (Menu.before s i).screenCols = s.screenCols ∧ (Menu.before s i).visBotlin = s.visBotlin := by
      unfold Menu.before; dsimp only; split <;> exact ⟨rfl, rfl, rfl⟩
    generalize hB : Menu.before s i = B at hb hbv
    have hvis : ∀ {x : Option St}, (if s.count = 0 ∨ s.visibleRows ≤ 0 then none else x) = some r → 0 < B.visibleRows ∧ x = some r := by
      intro x hx
      split at hx
      · cases hx
      · exact ⟨by rw [hbv.1]; omega, hx⟩
    cases i with
    | resize a b c => exact absurd ⟨a, b, c, rfl⟩ hz
    | next => unfold Menu.step at hr; simp only [hB] at hr; obtain ⟨_, hx⟩ := hvis hr; cases hx; exact hb.next
    | prev => unfold Menu.step at hr; simp only [hB] at hr; obtain ⟨_, hx⟩ := hvis hr; cases hx; exact hb.prev
    | up => unfold Menu.step at hr; simp only [hB] at hr; obtain ⟨_, hx⟩ := hvis hr; cases hx; exact hb.up
    | down => unfold Menu.step at hr; simp only [hB] at hr; obtain ⟨_, hx⟩ := hvis hr; cases hx; exact hb.down
    | left => unfold Menu.step at hr; simp only [hB] at hr; obtain ⟨_, hx⟩ := hvis hr; cases hx; exact hb.left
    | right => unfold Menu.step at hr; simp only [hB] at hr; obtain ⟨_, hx⟩ := hvis hr; cases hx; exact hb.right
    | wheelLeft => unfold Menu.step at hr; simp only [hB] at hr; obtain ⟨_, hx⟩ := hvis hr; cases hx; exact hb.left
    | wheelRight => unfold Menu.step at hr; simp only [hB] at hr; obtain ⟨_, hx⟩ := hvis hr; cases hx; exact hb.right
    | pageUp => unfold Menu.step at hr; simp only [hB] at hr; obtain ⟨hp, hx⟩ := hvis hr; cases hx; exact hb.pageUp hp
    | pageDown => unfold Menu.step at hr; simp only [hB] at hr; obtain ⟨hp, hx⟩ := hvis hr; cases hx; exact hb.pageDown hp
    | first =>
      unfold Menu.step at hr; simp only [hB] at hr; obtain ⟨_, hx⟩ := hvis hr; cases hx
      have := hb.grid.count
      exact Ready.nav (hb.ready.index (l := B.latched) (by omega) (by omega))
    | last => unfold Menu.step at hr; simp only [hB] at hr; obtain ⟨_, hx⟩ := hvis hr; cases hx; exact hb.last
    | mouse b p0 p1 can speed =>
      unfold Menu.step at hr; simp only [hB] at hr; obtain ⟨hp, hx⟩ := hvis hr
      obtain ⟨v1, v2, v3⟩ := hv
      exact hb.mouse hp v1 (by rw [hbv.2.1]; exact v2) v3 hx
    | wheelUp n => unfold Menu.step at hr; simp only [hB] at hr; obtain ⟨_, hx⟩ := hvis hr; cases hx; exact hb.wheelUp n
    | wheelDown n => unfold Menu.step at hr; simp only [hB] at hr; obtain ⟨_, hx⟩ := hvis hr; cases hx; exact hb.wheelDown n
    | f1 => unfold Menu.step at hr; simp only [hB] at hr; obtain ⟨_, hx⟩ := hvis hr; cases hx; exact hb.f1
    | typed it =>
      unfold Menu.step at hr; simp only [hB] at hr; obtain ⟨_, hx⟩ := hvis hr
      exact Inv.typed it hv.1 (by rw [hbv.2.2]; exact hv.2) hx
    | close => unfold Menu.step at hr; simp only at hr; obtain ⟨_, hx⟩ := hvis hr; cases hx

theorem Inv.activate {g : Cfg} {it : Items} (hi : ItemsOk g it) {c r b : Int} {yes : Bool} {s : St}
    (h : activate g it c r b yes = some s) : Inv g s := by
  unfold Menu.activate at h
  dsimp only at h
  generalize hx : ({ it := it, screenCols := c, screenRows := r, visBotlin := b, widths := it.columns false false } : St) = x at h
  have e1 : x.it = it ∧ x.index = 0 ∧ x.top = 0 ∧ x.calcWidths = true := by subst hx; exact ⟨rfl, rfl, rfl, rfl⟩
  split at h
  · cases h
  · cases h
    have := hi.count
    have hcx : (0 : Int) < x.count := by unfold St.count; rw [e1.1]; omega
    have hl := Ready.layout (g := g) (s := x) (by rw [e1.1]; exact hi) (Or.inl e1.2.2.2) (by omega) (by omega) (by omega)
    refine Ready.nav ?_
    obtain ⟨a, b, c, d, e, f, i, j, k⟩ := hl
    exact ⟨a, ⟨b.count, b.cols, b.rows, b.few⟩, c, d, e, Int.le_refl 0, by show 0 < (updateLayout g x).count; omega, Int.le_refl 0, k⟩

end Clink.Menu
