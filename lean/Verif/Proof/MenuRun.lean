import Verif.Proof.MenuPicture

/-!
All runs.
-/

namespace Clink.Menu
open Spec

theorem layoutGrid_place (s : St) : SamePlace s (layoutGrid s) := by
  unfold layoutGrid
  dsimp only
  split <;> split <;> constructor <;> rfl

theorem updateLayout_place (g : Cfg) (s : St) : SamePlace s (updateLayout g s) := by
  unfold updateLayout
  dsimp only
  generalize h1 : (if (s.calcWidths && s.initDescBelow) = true then { s with initDescBelow := false, descBelow := false } else s) = s1
  have e1 : SamePlace s s1 := by subst h1; split <;> constructor <;> rfl
  generalize hm : (s.calcWidths && s.initDescBelow && s1.it.hasDesc && decide (s1.count > 100) && !s1.it.onlyShort) = many
  generalize h2 : (if many = true then { s1 with descBelow := true } else s1) = s2
  have e2 : SamePlace s s2 := by
    subst h2; split
    · exact e1.trans (by constructor <;> rfl)
    · exact e1
  have e3 := e2.trans (layoutGrid_place s2)
  generalize layoutGrid s2 = s3 at e3
  generalize hc : (s.calcWidths && s.initDescBelow && !many && !s3.descBelow && s3.it.hasDesc && decide (s3.matchRows > 9) &&
    !s3.it.onlyShort) = cond
  generalize h4 : (if cond = true then layoutGrid { s3 with calcWidths := true, descBelow := true } else s3) = s4
  have e4 : SamePlace s s4 := by
    subst h4
    split
    · refine e3.trans ((?_ : SamePlace s3 _).trans (layoutGrid_place { s3 with calcWidths := true, descBelow := true }))
      constructor <;> rfl
    · exact e3
  exact e4.trans (by constructor <;> rfl)

theorem Steady.same {s s' : St} (h : Steady s) (hi : s'.it = s.it) (hb : s'.visBotlin = s.visBotlin) : Steady s' := by
  unfold Steady St.count at h ⊢
  rw [hi, hb]; exact h

theorem insert_index (g : Cfg) (s : St) : (insertMatch g s).index = s.index ∧ (insertMatch g s).count = s.count := by
  unfold insertMatch
  dsimp only
  split
  · have := updateLayout_place g { s with line := s.index, visBotlin := s.it.botlin s.index, screen := fun _ => .blank, prevDisplayed := -1, commentDisplayed := false }
    exact ⟨this.index, by unfold St.count; rw [this.it]⟩
  · exact ⟨rfl, rfl⟩

theorem Pre.nav {g : Cfg} {s : St} (h : Pre g s) (hI : Inv g (navigated g s)) (hs : Steady s) (ht : 0 ≤ s.top) (hv : 0 < s.visibleRows) :
    Pict g (navigated g s) ∧ Steady (navigated g s) := by
  have hc := core_updateDisplay g (insertMatch g s)
  obtain ⟨i1, i2⟩ := insert_index g s
  have j0 := hI.index0
  have j1 := hI.index1
  have hroom := hI.room
  have hG := hI.grid
  unfold navigated at j0 j1 hroom hG ⊢
  rw [hc.index, i1] at j0
  rw [hc.index, hc.count, i1, i2] at j1
  have e := insertMatch_same (g := g) (hs s.index j0 j1)
  have hc' := hc
  rw [e] at hc' hroom hG ⊢
  rw [hc'.visible] at hroom
  refine ⟨?_, hs.same (by rw [hc'.it]) (by rw [hc'.botlin])⟩
  have hg : GridOk g { s with line := s.index } := by
    have := hG.count; have a := hG.cols; have b := hG.rows; have d := hG.few
    rw [hc'.count] at this d
    rw [hc'.cols] at a
    rw [hc'.rows, hc'.cols, hc'.count] at b
    rw [hc'.cols] at d
    exact ⟨this, a, b, d⟩
  refine Pre.display (s := { s with line := s.index }) ⟨h.top, h.stage⟩ hg j0 j1 ht ?_
  have : ({ s with line := s.index } : St).visibleRows = s.visibleRows := rfl
  omega

structure Good (g : Cfg) (s : St) : Prop where
  inv : Inv g s
  steady : Steady s
  pict : 0 < s.visibleRows → Pict g s

theorem Pict.flags {g : Cfg} {s : St} (h : Pict g s) (i l : Bool) (p : Nat) (b : Bool) :
    Pict g { s with ignoreOfs := i, latched := l, prevInput := p, barClicked := b } := by
  obtain ⟨a, b, c, d, e, f⟩ := h
  exact ⟨a, b, c, d, e, f⟩

theorem Pict.before {g : Cfg} {s : St} (h : Pict g s) (i : Input) : Pict g (before s i) := by
  unfold Menu.before
  dsimp only
  split
  · exact h.flags false _ _ s.barClicked
  · exact h.flags false s.latched s.prevInput s.barClicked

/-- Keys that only move the selection. -/
theorem Pict.move {g : Cfg} {s : St} (h : Pict g s) (h0 : 0 ≤ s.index) (ht : 0 ≤ s.top) (hv : 0 < s.visibleRows) (hs : Steady s)
    {i : Int} {l : Bool} (hI : Inv g (navigated g { s with index := i, latched := l })) :
    Pict g (navigated g { s with index := i, latched := l }) ∧ Steady (navigated g { s with index := i, latched := l }) := by
  have hp := h.pre h0
  exact Pre.nav (s := { s with index := i, latched := l }) ⟨hp.top, hp.stage⟩ hI hs ht hv

theorem Pict.moveTop {g : Cfg} {s : St} (h : Pict g s) (h0 : 0 ≤ s.index) (hv : 0 < s.visibleRows) (hs : Steady s)
    {i t : Int} {o : Bool} (ht : 0 ≤ t) (ht' : t ≤ max 0 (s.matchRows - s.visibleRows))
    (hI : Inv g (navigated g (Menu.setTop { s with index := i, ignoreOfs := o } t))) :
    Pict g (navigated g (Menu.setTop { s with index := i, ignoreOfs := o } t)) ∧
      Steady (navigated g (Menu.setTop { s with index := i, ignoreOfs := o } t)) := by
  have hp := h.pre h0
  have hc := core_setTop { s with index := i, ignoreOfs := o } t
  have hp' : Pre g { s with index := i, ignoreOfs := o } := ⟨hp.top, hp.stage⟩
  exact (hp'.setTop ht').nav hI (hs.same hc.it hc.botlin) (by rw [setTop_top]; exact ht) (by rw [hc.visible]; exact hv)

theorem good_next {g : Cfg} {s : St} (h : Inv g s) (hp : Pict g s) (hv : 0 < s.visibleRows) (hs : Steady s) :
    Pict g (next g s) ∧ Steady (next g s) := by
  have := h.next
  unfold Menu.next at this ⊢
  exact hp.move h.index0 h.top hv hs (l := s.latched) this

theorem good_prev {g : Cfg} {s : St} (h : Inv g s) (hp : Pict g s) (hv : 0 < s.visibleRows) (hs : Steady s) :
    Pict g (prev g s) ∧ Steady (prev g s) := by
  have := h.prev
  unfold Menu.prev at this ⊢
  exact hp.move h.index0 h.top hv hs (l := s.latched) this

theorem good_arrowNext {g : Cfg} {s : St} (h : Inv g s) (hp : Pict g s) (hv : 0 < s.visibleRows) (hs : Steady s) :
    Pict g (arrowNext g s) ∧ Steady (arrowNext g s) := by
  unfold Menu.arrowNext
  split
  · exact good_next (s := { s with latched := true }) (h.flags s.ignoreOfs true s.prevInput s.barClicked)
      (hp.flags s.ignoreOfs true s.prevInput s.barClicked) hv hs
  · exact good_next h hp hv hs

theorem good_higher {g : Cfg} {s : St} (h : Inv g s) (hp : Pict g s) (hv : 0 < s.visibleRows) (hs : Steady s) {M : Int}
    (hI : Inv g (moveHigher g s M)) : Pict g (moveHigher g s M) ∧ Steady (moveHigher g s M) := by
  unfold Menu.moveHigher at hI ⊢
  split
  · exact ⟨hp, hs⟩
  · rename_i i l he
    rw [he] at hI
    exact hp.move h.index0 h.top hv hs hI

theorem good_up {g : Cfg} {s : St} (h : Inv g s) (hp : Pict g s) (hv : 0 < s.visibleRows) (hs : Steady s) :
    Pict g (up g s) ∧ Steady (up g s) := by
  have := h.up
  unfold Menu.up at this ⊢
  split
  · rename_i hh
    rw [if_pos hh] at this
    exact hp.move h.index0 h.top hv hs (l := s.latched) this
  · exact good_prev h hp hv hs

theorem good_left {g : Cfg} {s : St} (h : Inv g s) (hp : Pict g s) (hv : 0 < s.visibleRows) (hs : Steady s) :
    Pict g (left g s) ∧ Steady (left g s) := by
  have := h.left
  unfold Menu.left at this ⊢
  split
  · exact good_prev h hp hv hs
  · rename_i hh
    rw [if_neg hh] at this
    exact hp.move h.index0 h.top hv hs (l := s.latched) this

theorem good_down {g : Cfg} {s : St} (h : Inv g s) (hp : Pict g s) (hv : 0 < s.visibleRows) (hs : Steady s) :
    Pict g (down g s) ∧ Steady (down g s) := by
  have := h.down
  unfold Menu.down at this ⊢
  split
  · rename_i hh
    rw [if_pos hh] at this
    exact good_higher h hp hv hs this
  · exact good_arrowNext h hp hv hs

theorem good_right {g : Cfg} {s : St} (h : Inv g s) (hp : Pict g s) (hv : 0 < s.visibleRows) (hs : Steady s) :
    Pict g (right g s) ∧ Steady (right g s) := by
  have := h.right
  unfold Menu.right at this ⊢
  split
  · exact good_arrowNext h hp hv hs
  · rename_i hh
    rw [if_neg hh] at this
    exact good_higher h hp hv hs this

theorem good_pageUp {g : Cfg} {s : St} (h : Inv g s) (hp : Pict g s) (hv : 0 < s.visibleRows) (hs : Steady s) :
    Pict g (pageUp g s) ∧ Steady (pageUp g s) := by
  have := h.pageUp hv
  unfold Menu.pageUp at this ⊢
  dsimp only at this ⊢
  by_cases hc : rowOf g s s.index = 0
  · rw [if_pos hc] at this ⊢
    exact hp.move h.index0 h.top hv hs (l := s.latched) this
  · rw [if_neg hc] at this ⊢
    exact hp.move h.index0 h.top hv hs (l := s.latched) this

theorem good_pageDown {g : Cfg} {s : St} (h : Inv g s) (hp : Pict g s) (hv : 0 < s.visibleRows) (hs : Steady s) :
    Pict g (pageDown g s) ∧ Steady (pageDown g s) := by
  have hI := h.pageDown hv
  have ht := h.top
  have ht' := hp.top
  unfold Menu.pageDown at hI ⊢
  dsimp only at hI ⊢
  split
  · rename_i hc
    rw [if_pos hc] at hI
    exact hp.move h.index0 h.top hv hs (l := s.latched) hI
  · rename_i hc
    rw [if_neg hc] at hI
    generalize min (s.matchRows - 1) (if rowOf g s s.index ≥ s.top + (min s.matchRows s.visibleRows - scrollOfs g s - 1) then
      rowOf g s s.index + (min s.matchRows s.visibleRows - scrollOfs g s - 1)
      else s.top + (min s.matchRows s.visibleRows - scrollOfs g s - 1)) = y' at hI ⊢
    split
    · rename_i h2
      rw [if_pos h2] at hI
      split
      · rename_i h3
        rw [if_pos h3] at hI
        exact hp.moveTop h.index0 hv hs (o := s.ignoreOfs) (by omega) (by omega) hI
      · rename_i h3
        rw [if_neg h3] at hI
        exact hp.moveTop h.index0 hv hs (o := s.ignoreOfs) (by omega) (by split <;> omega) hI
    · rename_i h2
      rw [if_neg h2] at hI
      exact hp.moveTop h.index0 hv hs (o := s.ignoreOfs) (by omega) (by omega) hI

theorem good_last {g : Cfg} {s : St} (h : Inv g s) (hp : Pict g s) (hv : 0 < s.visibleRows) (hs : Steady s) :
    Pict g (last g s) ∧ Steady (last g s) := by
  have hI := h.last
  have ht := h.top
  have ht' := hp.top
  have hc := h.grid.count
  have hr := rowOf_range h.grid (i := s.count - 1) (by omega) (by omega)
  unfold Menu.last at hI ⊢
  dsimp only at hI ⊢
  exact hp.moveTop h.index0 hv hs (o := s.ignoreOfs) (by omega) (by split <;> omega) hI

theorem hitColumn_le {screenCols pad minor p0 : Int} {sc : Bool} (hm : 0 ≤ minor) :
    ∀ (l : List Int) (x i j : Int), hitColumn screenCols pad minor sc p0 l x i = some j → j ≤ i + (l.length - 1 : Int) * minor := by
  intro l
  induction l with
  | nil => intro x i j h; cases h
  | cons w ws ih =>
    intro x i j h
    rw [hitColumn] at h
    generalize hcw : (if ws.isEmpty = true then w + screenCols else if sc = true then w + pad else w) = cw at h
    have hl : (((w :: ws).length : Nat) : Int) - 1 = ws.length := by simp
    rw [hl]
    by_cases hc : p0 ≥ x ∧ p0 < x + cw
    · rw [if_pos hc] at h; cases h
      have := Int.mul_nonneg (Int.natCast_nonneg ws.length) hm
      omega
    · rw [if_neg hc] at h
      have := ih _ _ _ h
      rw [Int.sub_mul] at this
      omega

/-- Where the list is when the mouse is behind the last match. -/
theorem behind_row {g : Cfg} {s : St} (h : GridOk g s) (hl : (s.widths.list.length : Int) ≤ s.matchCols) {p0 row i : Int} {sc : Bool}
    (hr : row < s.matchRows)
    (hi : hitColumn s.screenCols s.widths.padding (minor g s) sc p0 s.widths.list 0 (major g s * row) = some i) (hic : i ≥ s.count) :
    rowOf g s s.count ≤ s.matchRows - 1 := by
  have hc := h.count
  have hco := h.cols
  have hle := hitColumn_le (minor_nonneg h) _ _ _ _ hi
  unfold rowOf
  split
  · rename_i hh
    rw [Int.tdiv_eq_ediv_of_nonneg (by omega)]
    unfold major minor at hle
    rw [if_pos hh, if_pos hh] at hle
    have := Int.mul_le_mul_of_nonneg_left (by omega : row ≤ s.matchRows - 1) (by omega : 0 ≤ s.matchCols)
    rw [Int.mul_sub] at this
    have hlt : s.count < s.matchRows * s.matchCols := by
      rw [Int.mul_comm]; omega
    have := Int.ediv_lt_of_lt_mul (by omega) hlt
    omega
  · have := rows_le_count h
    rw [Int.tmod_eq_emod_of_nonneg (by omega)]
    have := Int.emod_lt_of_pos s.count (by omega : 0 < s.matchRows)
    omega

/-- What was hit is selected. -/
theorem good_hit {g : Cfg} {s S : St} (h : Inv g s) (hv : 0 < s.visibleRows) (hs : Steady s) (hI0 : 0 ≤ s.top)
    (hcore : SameCore s S) (hex : S.expanded = s.expanded) (hdis : S.displayedRows = s.displayedRows) (hS0 : 0 ≤ S.top) (hp : Pre g S)
    {b : Button} {p0 row revert : Int} {sc : Bool} (hrev : 0 ≤ revert) (hrev' : revert ≤ max 0 (s.matchRows - s.visibleRows))
    (hc : ∀ i, hitColumn S.screenCols S.widths.padding (minor g S) sc p0 S.widths.list 0 (major g S * row) = some i → i ≥ S.count →
      rowOf g s s.count - (s.displayedRows - 1) ≤ max 0 (s.matchRows - s.visibleRows))
    {r : St} (hr : mousePos g S b p0 row revert sc = some r) (hI : Inv g r)
    (hnone : hitColumn S.screenCols S.widths.padding (minor g S) sc p0 S.widths.list 0 (major g S * row) = none → Pict g S) :
    Pict g r ∧ Steady r := by
  have hsS : Steady S := hs.same hcore.it hcore.botlin
  unfold mousePos at hr
  split at hr
  · rename_i he
    cases hr
    exact ⟨hnone he, hsS⟩
  · rename_i i he
    split at hr
    · cases hr
    · cases hr
      by_cases hic : i ≥ S.count
      · have e : hitState g S i revert = setTop { S with index := S.count - 1, ignoreOfs := true } (max revert (rowOf g S S.count - (S.displayedRows - 1))) := by
          unfold hitState; rw [if_pos hic]
        rw [e] at hI ⊢
        have hcc := hc i he hic
        have hk := core_setTop { S with index := S.count - 1, ignoreOfs := true } (max revert (rowOf g S S.count - (S.displayedRows - 1)))
        have hp' : Pre g { S with index := S.count - 1, ignoreOfs := true } := ⟨hp.top, hp.stage⟩
        refine Pre.nav (hp'.setTop ?_) hI (hsS.same hk.it hk.botlin) (by rw [setTop_top]; omega) ?_
        · show max revert (rowOf g S S.count - (S.displayedRows - 1)) ≤ max 0 (S.matchRows - S.visibleRows)
          rw [hcore.rowOf, hcore.count, hdis, hcore.rows, hcore.visible]; omega
        · rw [hk.visible]; show 0 < S.visibleRows; rw [hcore.visible]; exact hv
      · have e : hitState g S i revert = { S with index := i, ignoreOfs := true } := by
          unfold hitState; rw [if_neg hic]
        rw [e] at hI ⊢
        exact Pre.nav (s := { S with index := i, ignoreOfs := true }) ⟨hp.top, hp.stage⟩ hI hsS hS0
          (show 0 < S.visibleRows by rw [hcore.visible]; exact hv)

theorem good_mouse {g : Cfg} {s : St} (h : Inv g s) (hp : Pict g s) (hv : 0 < s.visibleRows) (hs : Steady s)
    {b : Button} {p0 p1 speed : Int} {can : Bool} (hp0 : 0 ≤ p0) (hp1 : p0 < s.screenCols) (hsp : 0 ≤ speed)
    (hcalm : TameMouse g s b p0 p1) {r : St} (hm : mouse g s b p0 p1 can speed = some r) (hI : Inv g r) : Pict g r ∧ Steady r := by
  unfold Menu.mouse at hm
  dsimp only at hm
  generalize hs' : barState s b p0 p1 = s' at hm
  have hx : ∃ x, s' = { s with barClicked := x } := by
    subst hs'; unfold barState; split
    · exact ⟨_, rfl⟩
    · exact ⟨s.barClicked, rfl⟩
  have hcalm' : (s'.expanded = true ∧ (s'.widths.list.length : Int) ≤ s'.matchCols) ∨ (s'.expanded = false ∧ s'.top = 0 ∧ s'.barClicked = false ∧
    ∀ i, hitColumn s'.screenCols s'.widths.padding (minor g s') false p0 s'.widths.list 0 (major g s' * p1) = some i → i < s'.count) := by
    unfold TameMouse at hcalm
    rw [hs'] at hcalm
    obtain ⟨x, rfl⟩ := hx
    exact hcalm
  have hi : Inv g s' ∧ Pict g s' ∧ Steady s' ∧ 0 < s'.visibleRows ∧ p0 < s'.screenCols := by
    obtain ⟨x, rfl⟩ := hx
    exact ⟨h.flags s.ignoreOfs s.latched s.prevInput _, hp.flags s.ignoreOfs s.latched s.prevInput _, hs, hv, hp1⟩
  clear hcalm hx hs' h hp hs hv hp1
  obtain ⟨h, hp, hs, hv, hp1⟩ := hi
  have hd := h.disp hv
  have ht := h.top
  have ht' := hp.top
  have hpre := hp.pre h.index0
  have hdr := hp.disp
  have hfull : s'.expanded = true → s'.displayedRows = min s'.visibleRows s'.matchRows := fun e => by rw [hdr, rowsFor_expanded e]
  -- scrolling while the mouse is outside
  have hit : ∀ (t row : Int), 0 ≤ t → t ≤ max 0 (s'.matchRows - s'.visibleRows) → row < s'.matchRows → s'.expanded = true →
      (s'.widths.list.length : Int) ≤ s'.matchCols →
      mousePos g (setTop s' t) b p0 row s'.top true = some r → Pict g r ∧ Steady r := by
    intro t row ht1 ht2 hrow hex hlen hm
    have hk := core_setTop s' t
    refine good_hit h hv hs ht hk (setTop_expanded _ _) (setTop_displayed _ _) (by rw [setTop_top]; exact ht1) (hpre.setTop ht2) ht ht'
      (fun i hi hic => ?_) hm hI (fun hn => ?_)
    · have := behind_row (hk.gridOk h.grid) (by rw [hk.widths, hk.cols]; exact hlen) (by rw [hk.rows]; exact hrow) hi hic
      rw [hk.rowOf, hk.count, hk.rows] at this
      have := hfull hex
      omega
    · obtain ⟨x, y, e⟩ := h.widths
      have : ∃ j, hitColumn (setTop s' t).screenCols (setTop s' t).widths.padding (minor g (setTop s' t)) true p0 (setTop s' t).widths.list 0
          (major g (setTop s' t) * row) = some j := by
        rw [hk.screenCols, hk.widths]
        refine hitColumn_some ?_ hp1 _ _ _ ?_ ?_ (by omega) hp0
        · rw [e]; exact h.items.padding x y
        · rw [e]; exact h.items.some x y
        · rw [e]; exact h.items.widths x y
      obtain ⟨j, hj⟩ := this
      rw [hj] at hn; cases hn
  split at hm
  · rename_i hbar
    cases hm
    rcases hcalm' with ⟨hex, hlen⟩ | ⟨_, _, hb, _⟩
    · have := hfull hex
      exact hp.moveTop h.index0 hv hs (o := s'.ignoreOfs) (by omega) (by omega) hI
    · rw [hb] at hbar; cases hbar
  · split at hm
    · rename_i hpp
      refine good_hit h hv hs ht (SameCore.refl _) rfl rfl ht hpre ht ht' (fun i hi hic => ?_) hm hI (fun _ => hp)
      rcases hcalm' with ⟨hex, hlen⟩ | ⟨_, h0, _, hlt⟩
      · have := behind_row h.grid hlen (row := p1 + s'.top) ?_ hi hic
        · have := hfull hex
          omega
        · omega
      · rw [h0, Int.add_zero] at hi
        have := hlt i hi
        omega
    · split at hm
      · split at hm
        · split at hm
          · rename_i hcan
            rcases hcalm' with ⟨hex, hlen⟩ | ⟨_, h0, _, _⟩
            · refine hit _ _ (by omega) (by omega) ?_ hex hlen hm
              rw [setTop_top]; omega
            · omega
          · cases hm; exact ⟨hp, hs⟩
        · cases hm
      · split at hm
        · cases hm
          rename_i hex
          refine ⟨Pre.display (s := { s' with expanded := true, commentDisplayed := false, prevDisplayed := -1 }) ⟨ht', ?_⟩
            ⟨h.grid.count, h.grid.cols, h.grid.rows, h.grid.few⟩ h.index0 h.index1 ht ?_, ?_⟩
          · refine stage_more hpre.stage ?_ (by decide : (-1 : Int) < 0) rfl rfl rfl rfl
            rw [rowsFor_expanded (s := { s' with expanded := true, commentDisplayed := false, prevDisplayed := -1 }) rfl]
            have := rowsFor_le (g := g) (s := s')
            dsimp only
            omega
          · have := h.room
            show 2 ≤ s'.visibleRows
            omega
          · have hk := core_updateDisplay g { s' with expanded := true, commentDisplayed := false, prevDisplayed := -1 }
            exact hs.same hk.it hk.botlin
        · rename_i hex
          have hex : s'.expanded = true := by simpa using hex
          have hf := hfull hex
          split at hm
          · split at hm
            · rename_i hcan
              rcases hcalm' with ⟨_, hlen⟩ | ⟨h0, _⟩
              · exact hit _ _ (by omega) (by omega) (by omega) hex hlen hm
              · rw [hex] at h0; cases h0
            · cases hm; exact ⟨hp, hs⟩
          · cases hm; exact ⟨hp, hs⟩

theorem good_wheelUp {g : Cfg} {s : St} (h : Inv g s) (hp : Pict g s) (hv : 0 < s.visibleRows) (hs : Steady s) (n : Nat) :
    Pict g (wheelUp g s n) ∧ Steady (wheelUp g s n) := by
  have hI := h.wheelUp n
  unfold Menu.wheelUp at hI ⊢
  dsimp only at hI ⊢
  generalize s.index - min (rowOf g s s.index) ↑n * major g s = i at hI ⊢
  split
  · rename_i hc
    rw [if_pos hc] at hI
    have hk := core_updateDisplay g { s with index := i }
    have h0 := hI.index0
    have h1 := hI.index1
    rw [hk.index] at h0
    rw [hk.index, hk.count] at h1
    have hpre := hp.pre h.index0
    refine ⟨Pre.display (s := { s with index := i }) ⟨hpre.top, hpre.stage⟩ ⟨h.grid.count, h.grid.cols, h.grid.rows, h.grid.few⟩ h0 h1 h.top ?_,
      hs.same hk.it hk.botlin⟩
    have := h.room
    show 2 ≤ s.visibleRows
    omega
  · exact ⟨hp, hs⟩

/-- The same grid. -/
structure SameGrid (s s' : St) : Prop where
  it : s'.it = s.it
  cols : s'.matchCols = s.matchCols
  rows : s'.matchRows = s.matchRows
  visible : s'.visibleRows = s.visibleRows
  botlin : s'.visBotlin = s.visBotlin

theorem SameGrid.gridOk {g : Cfg} {s s' : St} (h : SameGrid s s') (k : GridOk g s) : GridOk g s' := by
  obtain ⟨k1, k2, k3, k4⟩ := k
  unfold St.count at k1 k3 k4
  constructor
  · unfold St.count; rw [h.it]; exact k1
  · rw [h.cols]; exact k2
  · unfold St.count; rw [h.rows, h.cols, h.it]; exact k3
  · unfold St.count; rw [h.cols, h.it]; exact k4

theorem good_wheelDown {g : Cfg} {s : St} (h : Inv g s) (hp : Pict g s) (hv : 0 < s.visibleRows) (hs : Steady s) (n : Nat) :
    Pict g (wheelDown g s n) ∧ Steady (wheelDown g s n) := by
  have hI := h.wheelDown n
  have ht := h.top
  have ht' := hp.top
  have hpre := hp.pre h.index0
  unfold Menu.wheelDown at hI ⊢
  dsimp only at hI ⊢
  generalize hi : s.index + min (s.matchRows - 1 - rowOf g s s.index) ↑n * major g s = i at hI ⊢
  have hw : Pre g (wheelState g s i) ∧ SameGrid s (wheelState g s i) ∧ 0 ≤ (wheelState g s i).top := by
    unfold wheelState
    dsimp only
    split
    · split
      · have hp' : Pre g { s with index := s.count - 1 } := ⟨hpre.top, hpre.stage⟩
        have hk := core_setTop { s with index := s.count - 1 } (min (max 0 (s.matchRows - min s.matchRows s.visibleRows)) (s.top + 1))
        refine ⟨hp'.setTop ?_, ⟨hk.it, hk.cols, hk.rows, hk.visible, hk.botlin⟩, by rw [setTop_top]; omega⟩
        show _ ≤ max 0 (s.matchRows - s.visibleRows)
        omega
      · exact ⟨⟨hpre.top, hpre.stage⟩, ⟨rfl, rfl, rfl, rfl, rfl⟩, ht⟩
    · exact ⟨⟨hpre.top, hpre.stage⟩, ⟨rfl, rfl, rfl, rfl, rfl⟩, ht⟩
  split
  · rename_i hc
    rw [if_pos hc] at hI
    obtain ⟨w1, w2, w3⟩ := hw
    generalize wheelState g s i = S at w1 w2 w3 hI
    have hk := core_updateDisplay g S
    have h0 := hI.index0
    have h1 := hI.index1
    rw [hk.index] at h0
    rw [hk.index, hk.count] at h1
    have hr := h.room
    refine ⟨w1.display (w2.gridOk h.grid) h0 h1 w3 (by rw [w2.visible]; omega), hs.same (hk.it.trans w2.it) (hk.botlin.trans w2.botlin)⟩
  · rename_i hc
    rw [wheelState_same]
    · exact ⟨hp, hs⟩
    · exact Classical.byContradiction fun e => hc (Or.inl e)
    · exact Classical.byContradiction fun e => hc (Or.inr e)

theorem good_f1 {g : Cfg} {s : St} (h : Inv g s) (hp : Pict g s) (hs : Steady s) :
    (0 < (f1 g s).visibleRows → Pict g (f1 g s)) ∧ Steady (f1 g s) := by
  unfold Menu.f1
  split
  · dsimp only
    have hr := Ready.layout (g := g) (s := { s with descBelow := !s.descBelow, calcWidths := true }) h.items (Or.inl rfl) h.index0 h.index1 h.top
    have hpl := updateLayout_place g { s with descBelow := !s.descBelow, calcWidths := true }
    generalize updateLayout g { s with descBelow := !s.descBelow, calcWidths := true } = S at hr hpl
    generalize ht : (if max 0 (rowOf g S S.index - (rowOf g s s.index - s.top)) > max 0 (S.matchRows - S.visibleRows) then
      max 0 (S.matchRows - S.visibleRows) else max 0 (rowOf g S S.index - (rowOf g s s.index - s.top))) = t
    have ht0 : 0 ≤ t ∧ t ≤ max 0 (S.matchRows - S.visibleRows) := by subst ht; split <;> omega
    have hr' := hr.setTop ht0.1
    have hk := core_setTop S t
    have hkd := core_updateDisplay g { setTop S t with clearDisplay := true }
    refine ⟨fun hv => ?_, hs.same (hkd.it.trans (hk.it.trans hpl.it)) (hkd.botlin.trans (hk.botlin.trans hpl.botlin))⟩
    rw [hkd.visible] at hv
    refine Pre.display (s := { setTop S t with clearDisplay := true }) ⟨?_, Or.inl rfl⟩
      ⟨hr'.grid.count, hr'.grid.cols, hr'.grid.rows, hr'.grid.few⟩ hr'.index0 hr'.index1 hr'.top ?_
    · show (setTop S t).top ≤ max 0 ((setTop S t).matchRows - (setTop S t).visibleRows)
      rw [setTop_top, hk.rows, hk.visible]; exact ht0.2
    · have := hr'.room
      have hv : 0 < (setTop S t).visibleRows := hv
      show 2 ≤ (setTop S t).visibleRows
      omega
  · exact ⟨fun _ => hp, hs⟩

theorem good_typed {g : Cfg} {s : St} (hp : Pict g s) (it : Items) (hi : 1 ≤ it.count → ItemsOk g it)
    (hb : ∀ i : Int, 0 ≤ i → i < it.count → it.botlin i = s.visBotlin) {r : St} (hr : typed g s it = some r) :
    (0 < r.visibleRows → Pict g r) ∧ Steady r := by
  unfold Menu.typed at hr
  dsimp only at hr
  split at hr
  · cases hr
  · rename_i hc
    cases hr
    have hi := hi (by omega)
    generalize hx : ({ resetTop s with it := it, clearDisplay := (resetTop s).anyDisplayed, calcWidths := true, ignoreOfs := false } : St) = x
    have e1 : x.it = it ∧ x.index = 0 ∧ x.top = 0 ∧ x.calcWidths = true ∧ x.visBotlin = s.visBotlin ∧ x.clearDisplay = true := by
      subst hx; exact ⟨rfl, rfl, rfl, rfl, rfl, hp.any⟩
    obtain ⟨x1, x2, x3, x4, x5, x6⟩ := e1
    have hcx : (0 : Int) < x.count := by unfold St.count; rw [x1]; omega
    have hl := Ready.layout (g := g) (s := x) (by rw [x1]; exact hi) (Or.inl x4) (by omega) (by omega) (by omega)
    have hpl := updateLayout_place g x
    have hsx : Steady x := by
      intro i h0 h1
      rw [x1, x5]; unfold St.count at h1; rw [x1] at h1; exact hb i h0 h1
    generalize updateLayout g x = S at hl hpl
    have hcd := core_updateDisplay g S
    have hsd : Steady (updateDisplay g S) := hsx.same (hcd.it.trans hpl.it) (hcd.botlin.trans hpl.botlin)
    rw [insertMatch_same (hsd _ (by rw [hcd.index, hpl.index, x2]; omega) (by
      rw [hcd.index, hpl.index, hcd.count, x2]; unfold St.count; rw [hpl.it]; exact hcx))]
    refine ⟨fun hv => ?_, hsd⟩
    have hv : 0 < (updateDisplay g S).visibleRows := hv
    rw [hcd.visible] at hv
    have hroom := hl.room
    have : Pict g (updateDisplay g S) := Pre.display ⟨by rw [hpl.top, x3]; omega, Or.inl (by rw [hpl.clear]; exact x6)⟩ hl.grid hl.index0 hl.index1 hl.top (by omega)
    obtain ⟨a, b, c, d, e, f⟩ := this
    exact ⟨a, b, c, d, e, f⟩

theorem Good.activate {g : Cfg} {it : Items} (hi : ItemsOk g it) {c r b : Int} {yes : Bool} {s : St}
    (hb : ∀ i : Int, 0 ≤ i → i < it.count → it.botlin i = b) (h : activate g it c r b yes = some s) : Good g s := by
  have hI := Inv.activate hi h
  have hcnt := hi.count
  unfold Menu.activate at h
  dsimp only at h
  generalize hx : ({ it := it, screenCols := c, screenRows := r, visBotlin := b, widths := it.columns false false } : St) = x at h
  have e1 : x.it = it ∧ x.index = 0 ∧ x.top = 0 ∧ x.calcWidths = true ∧ x.visBotlin = b ∧ x.screen = (fun _ => .blank) ∧ x.prevDisplayed = -1 ∧
    x.commentDisplayed = false := by subst hx; exact ⟨rfl, rfl, rfl, rfl, rfl, rfl, rfl, rfl⟩
  obtain ⟨x1, x2, x3, x4, x5, x6, x7, x8⟩ := e1
  have hpl := updateLayout_place g x
  have hsx : Steady x := by
    intro i h0 h1
    rw [x1, x5]; unfold St.count at h1; rw [x1] at h1; exact hb i h0 h1
  split at h
  · cases h
  · rename_i hvis
    cases h
    generalize updateLayout g x = S at *
    have hs' : Steady (resetTop { S with expanded := yes }) := hsx.same hpl.it hpl.botlin
    have hpre : Pre g (resetTop { S with expanded := yes }) := by
      refine ⟨by show 0 ≤ max 0 _; omega, Or.inr (Or.inl ⟨(by decide : (-1 : Int) < 0), rfl, fun r => ?_⟩)⟩
      show S.screen r = .blank
      rw [hpl.screen, x6]
    have := hpre.nav hI hs' (Int.le_refl 0) (show 0 < S.visibleRows by omega)
    exact ⟨hI, this.2, fun _ => this.1⟩

theorem Good.step {g : Cfg} {s : St} (h : Good g s) (i : Input) (hv : Valid g s i) (hc : Calm g s i) {r : St}
    (hr : step g s i = some r) : Good g r := by
  have hI := h.inv.step i hv hr
  have main : (0 < r.visibleRows → Pict g r) ∧ Steady r := by
    have hb := h.inv.before i
    have hbv : (Menu.before s i).visibleRows = s.visibleRows ∧ (Menu.before s i).screenCols = s.screenCols ∧
        (Menu.before s i).visBotlin = s.visBotlin ∧ (Menu.before s i).it = s.it := by
      unfold Menu.before; dsimp only; split <;> exact ⟨rfl, rfl, rfl, rfl⟩
    have hpb := fun hv => (h.pict hv).before i
    have hTM : ∀ b p0 p1, TameMouse g s b p0 p1 → TameMouse g (Menu.before s i) b p0 p1 := by
      intro b p0 p1 ht
      have : ∃ a l p, Menu.before s i = { s with ignoreOfs := a, latched := l, prevInput := p } := by
        unfold Menu.before; dsimp only; split
        · exact ⟨_, _, _, rfl⟩
        · exact ⟨_, s.latched, s.prevInput, rfl⟩
      obtain ⟨a, l, p, e⟩ := this
      rw [e]
      have hbs : (barState { s with ignoreOfs := a, latched := l, prevInput := p } b p0 p1).barClicked = (barState s b p0 p1).barClicked := by
        unfold barState; dsimp only; split <;> rfl
      unfold TameMouse at ht ⊢
      rw [hbs]
      exact ht
    generalize hB : Menu.before s i = B at hb hbv hpb hTM
    have hst : Steady B := h.steady.same hbv.2.2.2 hbv.2.2.1
    have hvis : ∀ {x : Option St}, (if s.count = 0 ∨ s.visibleRows ≤ 0 then none else x) = some r → 0 < B.visibleRows ∧ Pict g B ∧ x = some r := by
      intro x hx
      split at hx
      · cases hx
      · exact ⟨by rw [hbv.1]; omega, hpb (by omega), hx⟩
    have fin : ∀ {x : St}, Pict g x ∧ Steady x → (0 < x.visibleRows → Pict g x) ∧ Steady x := fun k => ⟨fun _ => k.1, k.2⟩
    cases i with
    | resize a b c => exact absurd hc id
    | next => unfold Menu.step at hr; simp only [hB] at hr; obtain ⟨hw, hq, hx⟩ := hvis hr; cases hx; exact fin (good_next hb hq hw hst)
    | prev => unfold Menu.step at hr; simp only [hB] at hr; obtain ⟨hw, hq, hx⟩ := hvis hr; cases hx; exact fin (good_prev hb hq hw hst)
    | up => unfold Menu.step at hr; simp only [hB] at hr; obtain ⟨hw, hq, hx⟩ := hvis hr; cases hx; exact fin (good_up hb hq hw hst)
    | down => unfold Menu.step at hr; simp only [hB] at hr; obtain ⟨hw, hq, hx⟩ := hvis hr; cases hx; exact fin (good_down hb hq hw hst)
    | left => unfold Menu.step at hr; simp only [hB] at hr; obtain ⟨hw, hq, hx⟩ := hvis hr; cases hx; exact fin (good_left hb hq hw hst)
    | right => unfold Menu.step at hr; simp only [hB] at hr; obtain ⟨hw, hq, hx⟩ := hvis hr; cases hx; exact fin (good_right hb hq hw hst)
    | wheelLeft => unfold Menu.step at hr; simp only [hB] at hr; obtain ⟨hw, hq, hx⟩ := hvis hr; cases hx; exact fin (good_left hb hq hw hst)
    | wheelRight => unfold Menu.step at hr; simp only [hB] at hr; obtain ⟨hw, hq, hx⟩ := hvis hr; cases hx; exact fin (good_right hb hq hw hst)
    | pageUp => unfold Menu.step at hr; simp only [hB] at hr; obtain ⟨hw, hq, hx⟩ := hvis hr; cases hx; exact fin (good_pageUp hb hq hw hst)
    | pageDown => unfold Menu.step at hr; simp only [hB] at hr; obtain ⟨hw, hq, hx⟩ := hvis hr; cases hx; exact fin (good_pageDown hb hq hw hst)
    | first =>
      unfold Menu.step at hr; simp only [hB] at hr; obtain ⟨hw, hq, hx⟩ := hvis hr; cases hx
      exact fin (hq.move hb.index0 hb.top hw hst (l := B.latched) hI)
    | last => unfold Menu.step at hr; simp only [hB] at hr; obtain ⟨hw, hq, hx⟩ := hvis hr; cases hx; exact fin (good_last hb hq hw hst)
    | mouse b p0 p1 can speed =>
      unfold Menu.step at hr; simp only [hB] at hr; obtain ⟨hw, hq, hx⟩ := hvis hr
      obtain ⟨v1, v2, v3⟩ := hv
      exact fin (good_mouse hb hq hw hst v1 (by rw [hbv.2.1]; exact v2) v3 (hTM _ _ _ hc) hx hI)
    | wheelUp n => unfold Menu.step at hr; simp only [hB] at hr; obtain ⟨hw, hq, hx⟩ := hvis hr; cases hx; exact fin (good_wheelUp hb hq hw hst n)
    | wheelDown n => unfold Menu.step at hr; simp only [hB] at hr; obtain ⟨hw, hq, hx⟩ := hvis hr; cases hx; exact fin (good_wheelDown hb hq hw hst n)
    | f1 => unfold Menu.step at hr; simp only [hB] at hr; obtain ⟨hw, hq, hx⟩ := hvis hr; cases hx; exact good_f1 hb hq hst
    | typed it =>
      unfold Menu.step at hr; simp only [hB] at hr; obtain ⟨hw, hq, hx⟩ := hvis hr
      exact good_typed hq it hv.1 (by rw [hbv.2.2.1]; exact hc) hx
    | close => unfold Menu.step at hr; simp only at hr; obtain ⟨hw, hq, hx⟩ := hvis hr; cases hx
  exact ⟨hI, main.2, main.1⟩

end Clink.Menu
