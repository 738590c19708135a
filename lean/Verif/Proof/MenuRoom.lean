import Verif.Proof.MenuMouse

/-!
The list fits on the terminal.
-/

namespace Clink.Menu
open Spec

/-- There are as many rows as there is room for, and wide matches have their description below. -/
def Room (g : Cfg) (s : St) : Prop :=
  s.visibleRows = roomFor g s ∧ (0 < s.count → s.screenCols - 3 ≤ s.widths.maxMatch → s.descBelow = true)

theorem Room.core {g : Cfg} {s s' : St} (h : Room g s) (k : SameCore s s') : Room g s' := by
  unfold Room roomFor St.count at *
  rw [k.visible, k.botlin, k.it, k.screenCols, k.screenRows, k.below, k.rows, k.widths]
  exact h

theorem layoutGrid_below (s : St) (h0 : 0 < (layoutGrid s).count)
    (h : (layoutGrid s).screenCols - 3 ≤ (layoutGrid s).widths.maxMatch) : (layoutGrid s).descBelow = true := by
  unfold layoutGrid at *
  dsimp only at *
  generalize (if s.calcWidths = true then _ else s) = u at *
  by_cases hc : 0 < u.count ∧ u.widths.maxMatch ≥ u.screenCols - 3
  · rw [if_pos hc]
  · rw [if_neg hc] at h0 h
    exact absurd ⟨h0, h⟩ hc

theorem ite_below (c : Bool) (a b : St) (h0 : 0 < (if c = true then layoutGrid b else layoutGrid a).count)
    (h : (if c = true then layoutGrid b else layoutGrid a).screenCols - 3 ≤ (if c = true then layoutGrid b else layoutGrid a).widths.maxMatch) :
    (if c = true then layoutGrid b else layoutGrid a).descBelow = true := by
  cases c
  · exact layoutGrid_below _ h0 h
  · exact layoutGrid_below _ h0 h

theorem room_layout (g : Cfg) (s : St) : Room g (updateLayout g s) := by
  exact ⟨rfl, fun h0 h => ite_below _ _ _ h0 h⟩

theorem room_insert {g : Cfg} {s : St} (h : Room g s) : Room g (insertMatch g s) := by
  unfold insertMatch
  dsimp only
  split
  · exact room_layout ..
  · rename_i hb
    have hb : s.visBotlin = s.it.botlin s.index := Classical.byContradiction hb
    unfold Room roomFor at *
    dsimp only
    rw [← hb]
    exact h

theorem room_nav {g : Cfg} {s : St} (h : Room g s) : Room g (navigated g s) :=
  (room_insert h).core (core_updateDisplay g _)

theorem room_index {g : Cfg} {s : St} (h : Room g s) (i : Int) : Room g { s with index := i } := h

theorem room_setTop {g : Cfg} {s : St} (h : Room g s) (t : Int) : Room g (setTop s t) := h.core (core_setTop s t)

theorem room_mousePos {g : Cfg} {s : St} (h : Room g s) {b : Button} {p0 row revert : Int} {sc : Bool} {r : St}
    (hr : mousePos g s b p0 row revert sc = some r) : Room g r := by
  unfold mousePos at hr
  split at hr
  · cases hr; exact h
  · split at hr
    · cases hr
    · cases hr
      refine room_nav ?_
      unfold hitState
      split
      · refine room_setTop ?_ _; exact h
      · exact h

theorem room_mouse {g : Cfg} {s : St} (h : Room g s) {b : Button} {p0 p1 speed : Int} {can : Bool} {r : St}
    (hr : mouse g s b p0 p1 can speed = some r) : Room g r := by
  unfold mouse at hr
  dsimp only at hr
  have hb : Room g (barState s b p0 p1) := by unfold barState; split <;> exact h
  generalize barState s b p0 p1 = S at hb hr
  split at hr
  · cases hr
    refine room_nav (room_setTop ?_ _); exact hb
  · split at hr
    · exact room_mousePos hb hr
    · split at hr
      · split at hr
        · split at hr
          · exact room_mousePos (room_setTop hb _) hr
          · cases hr; exact hb
        · cases hr
      · split at hr
        · cases hr
          exact Room.core (by exact hb) (core_updateDisplay g _)
        · split at hr
          · split at hr
            · exact room_mousePos (room_setTop hb _) hr
            · cases hr; exact hb
          · cases hr; exact hb

theorem room_next {g : Cfg} {s : St} (h : Room g s) : Room g (next g s) := by unfold next; exact room_nav h
theorem room_arrowNext {g : Cfg} {s : St} (h : Room g s) : Room g (arrowNext g s) := by
  unfold arrowNext; refine room_next ?_; split <;> exact h

theorem room_higher {g : Cfg} {s : St} (h : Room g s) (M : Int) : Room g (moveHigher g s M) := by
  unfold moveHigher
  split
  · exact h
  · exact room_nav h

theorem room_step {g : Cfg} {s : St} (h : Room g s) (i : Input) {r : St} (hr : step g s i = some r) : Room g r := by
  have hb : Room g (before s i) := by
    unfold before; dsimp only; split <;> exact h
  generalize hB : before s i = B at hb
  have hvis : ∀ {x : Option St}, (if s.count = 0 ∨ s.visibleRows ≤ 0 then none else x) = some r → x = some r := by
    intro x hx
    split at hx
    · cases hx
    · exact hx
  have hst : ∀ S t, Room g S → Room g (setTop S t) := fun S t h => room_setTop h t
  cases i with
  | resize a b c => cases hr; unfold resize; exact (room_layout g _).core (core_updateDisplay g _)
  | next => unfold step at hr; simp only [hB] at hr; have hx := hvis hr; cases hx; exact room_nav hb
  | prev => unfold step at hr; simp only [hB] at hr; have hx := hvis hr; cases hx; exact room_nav hb
  | up =>
    unfold step at hr; simp only [hB] at hr; have hx := hvis hr; cases hx
    unfold up; split <;> exact room_nav hb
  | left =>
    unfold step at hr; simp only [hB] at hr; have hx := hvis hr; cases hx
    unfold left; split <;> exact room_nav hb
  | wheelLeft =>
    unfold step at hr; simp only [hB] at hr; have hx := hvis hr; cases hx
    unfold left; split <;> exact room_nav hb
  | down =>
    unfold step at hr; simp only [hB] at hr; have hx := hvis hr; cases hx
    unfold down; split
    · exact room_higher hb _
    · exact room_arrowNext hb
  | right =>
    unfold step at hr; simp only [hB] at hr; have hx := hvis hr; cases hx
    unfold right; split
    · exact room_arrowNext hb
    · exact room_higher hb _
  | wheelRight =>
    unfold step at hr; simp only [hB] at hr; have hx := hvis hr; cases hx
    unfold right; split
    · exact room_arrowNext hb
    · exact room_higher hb _
  | pageUp =>
    unfold step at hr; simp only [hB] at hr; have hx := hvis hr; cases hx
    unfold pageUp; dsimp only; split <;> exact room_nav hb
  | pageDown =>
    unfold step at hr; simp only [hB] at hr; have hx := hvis hr; cases hx
    unfold pageDown; dsimp only
    repeat' split
    all_goals first
      | (refine room_nav (hst _ _ ?_); exact hb)
      | exact room_nav hb
  | first => unfold step at hr; simp only [hB] at hr; have hx := hvis hr; cases hx; exact room_nav hb
  | last =>
    unfold step at hr; simp only [hB] at hr; have hx := hvis hr; cases hx
    refine room_nav (hst _ _ ?_); exact hb
  | mouse b p0 p1 can speed =>
    unfold step at hr; simp only [hB] at hr
    exact room_mouse hb (hvis hr)
  | wheelUp n =>
    unfold step at hr; simp only [hB] at hr; have hx := hvis hr; cases hx
    unfold wheelUp; dsimp only; split
    · refine Room.core ?_ (core_updateDisplay g _); exact hb
    · exact hb
  | wheelDown n =>
    unfold step at hr; simp only [hB] at hr; have hx := hvis hr; cases hx
    have hw : ∀ j, Room g (wheelState g B j) := by
      intro j
      unfold wheelState; dsimp only; split
      · split
        · refine hst _ _ ?_; exact hb
        · exact hb
      · exact hb
    unfold wheelDown; dsimp only; split
    · exact (hw _).core (core_updateDisplay g _)
    · exact hw _
  | f1 =>
    unfold step at hr; simp only [hB] at hr; have hx := hvis hr; cases hx
    unfold f1; split
    · dsimp only
      refine Room.core ?_ (core_updateDisplay g _)
      exact hst _ _ (room_layout g _)
    · exact hb
  | typed it =>
    unfold step at hr; simp only [hB] at hr; have hx := hvis hr
    unfold typed at hx
    dsimp only at hx
    split at hx
    · cases hx
    · cases hx
      exact room_insert ((room_layout g _).core (core_updateDisplay g _))
  | close => unfold step at hr; simp only at hr; have hx := hvis hr; cases hx

theorem room_activate {g : Cfg} {it : Items} {c r b : Int} {yes : Bool} {s : St} (h : activate g it c r b yes = some s) : Room g s := by
  unfold activate at h
  dsimp only at h
  split at h
  · cases h
  · cases h
    exact room_nav (room_layout g { it := it, screenCols := c, screenRows := r, visBotlin := b, widths := it.columns false false })

/-- What there is room for. -/
theorem Room.fits {g : Cfg} {s : St} (h : Room g s) (hv : 0 < s.visibleRows) (hr : 0 ≤ s.screenRows) (hc : 1 ≤ s.screenCols)
    (hl : 0 ≤ s.it.longest) (hd : s.displayedRows ≤ min s.visibleRows s.matchRows) :
    s.visBotlin + 1 + s.displayedRows + (if s.displayedRows < s.matchRows then 1 else 0) + (if s.descBelow then 2 else 0) < s.screenRows := by
  replace h := h.1
  unfold roomFor at h
  dsimp only at h
  have h1 : 1 ≤ (s.it.longest + 3 + s.screenCols - 1).tdiv s.screenCols := by
    rw [Int.tdiv_eq_ediv_of_nonneg (by omega)]
    exact (Int.le_ediv_iff_mul_le (by omega)).2 (by omega)
  have h2 : 0 ≤ s.screenRows.tdiv 10 := Int.tdiv_nonneg hr (by omega)
  generalize (s.it.longest + 3 + s.screenCols - 1).tdiv s.screenCols = H at h h1
  generalize s.screenRows.tdiv 10 = T at h h2
  by_cases hbelow : s.descBelow = true
  · rw [if_pos hbelow] at h ⊢
    repeat' split at h
    all_goals split <;> omega
  · rw [if_neg hbelow] at h ⊢
    repeat' split at h
    all_goals split <;> omega

/-- The last input was this one. -/
def PI (p : Nat) (s : St) : Prop := s.prevInput = p

theorem PI.core {p : Nat} {s s' : St} (h : PI p s) (k : SameCore s s') : PI p s' := k.prevInput.trans h

theorem pi_layout {p : Nat} {g : Cfg} {s : St} (h : PI p s) : PI p (updateLayout g s) := (updateLayout_place g s).prevInput.trans h

theorem pi_insert {p : Nat} {g : Cfg} {s : St} (h : PI p s) : PI p (insertMatch g s) := (insert_line g s).2.2.trans h

theorem pi_nav {p : Nat} {g : Cfg} {s : St} (h : PI p s) : PI p (navigated g s) :=
  (pi_insert h).core (core_updateDisplay g _)

theorem pi_setTop {p : Nat} {s : St} (h : PI p s) (t : Int) : PI p (setTop s t) := h.core (core_setTop s t)

theorem pi_mousePos {p : Nat} {g : Cfg} {s : St} (h : PI p s) {b : Button} {p0 row revert : Int} {sc : Bool} {r : St}
    (hr : mousePos g s b p0 row revert sc = some r) : PI p r := by
  unfold mousePos at hr
  split at hr
  · cases hr; exact h
  · split at hr
    · cases hr
    · cases hr
      refine pi_nav ?_
      unfold hitState
      split
      · refine pi_setTop ?_ _; exact h
      · exact h

theorem pi_mouse {p : Nat} {g : Cfg} {s : St} (h : PI p s) {b : Button} {p0 p1 speed : Int} {can : Bool} {r : St}
    (hr : mouse g s b p0 p1 can speed = some r) : PI p r := by
  unfold mouse at hr
  dsimp only at hr
  have hb : PI p (barState s b p0 p1) := by unfold barState; split <;> exact h
  generalize barState s b p0 p1 = S at hb hr
  split at hr
  · cases hr
    refine pi_nav (pi_setTop ?_ _); exact hb
  · split at hr
    · exact pi_mousePos hb hr
    · split at hr
      · split at hr
        · split at hr
          · exact pi_mousePos (pi_setTop hb _) hr
          · cases hr; exact hb
        · cases hr
      · split at hr
        · cases hr
          exact PI.core (by exact hb) (core_updateDisplay g _)
        · split at hr
          · split at hr
            · exact pi_mousePos (pi_setTop hb _) hr
            · cases hr; exact hb
          · cases hr; exact hb

theorem pi_next {p : Nat} {g : Cfg} {s : St} (h : PI p s) : PI p (next g s) := by unfold next; exact pi_nav h
theorem pi_arrowNext {p : Nat} {g : Cfg} {s : St} (h : PI p s) : PI p (arrowNext g s) := by
  unfold arrowNext; refine pi_next ?_; split <;> exact h

theorem pi_higher {p : Nat} {g : Cfg} {s : St} (h : PI p s) (M : Int) : PI p (moveHigher g s M) := by
  unfold moveHigher
  split
  · exact h
  · exact pi_nav h

/-- The last input. -/
theorem pi_step {g : Cfg} {s : St} (i : Input) (hz : ∀ n : Int × Int × Int, i ≠ .resize n.1 n.2.1 n.2.2) {r : St} (hr : step g s i = some r) :
    PI i.id r := by
  have hb : PI i.id (before s i) := by
    unfold before; dsimp only; split
    · rfl
    · rename_i hp; exact Classical.byContradiction hp
  generalize hp : i.id = p at hb ⊢
  generalize hB : before s i = B at hb
  have hvis : ∀ {x : Option St}, (if s.count = 0 ∨ s.visibleRows ≤ 0 then none else x) = some r → x = some r := by
    intro x hx
    split at hx
    · cases hx
    · exact hx
  have hst : ∀ S t, PI p S → PI p (setTop S t) := fun S t h => pi_setTop h t
  cases i with
  | resize a b c => exact absurd rfl (hz (a, b, c))
  | next => unfold step at hr; simp only [hB] at hr; have hx := hvis hr; cases hx; exact pi_nav hb
  | prev => unfold step at hr; simp only [hB] at hr; have hx := hvis hr; cases hx; exact pi_nav hb
  | up =>
    unfold step at hr; simp only [hB] at hr; have hx := hvis hr; cases hx
    unfold up; split <;> exact pi_nav hb
  | left =>
    unfold step at hr; simp only [hB] at hr; have hx := hvis hr; cases hx
    unfold left; split <;> exact pi_nav hb
  | wheelLeft =>
    unfold step at hr; simp only [hB] at hr; have hx := hvis hr; cases hx
    unfold left; split <;> exact pi_nav hb
  | down =>
    unfold step at hr; simp only [hB] at hr; have hx := hvis hr; cases hx
    unfold down; split
    · exact pi_higher hb _
    · exact pi_arrowNext hb
  | right =>
    unfold step at hr; simp only [hB] at hr; have hx := hvis hr; cases hx
    unfold right; split
    · exact pi_arrowNext hb
    · exact pi_higher hb _
  | wheelRight =>
    unfold step at hr; simp only [hB] at hr; have hx := hvis hr; cases hx
    unfold right; split
    · exact pi_arrowNext hb
    · exact pi_higher hb _
  | pageUp =>
    unfold step at hr; simp only [hB] at hr; have hx := hvis hr; cases hx
    unfold pageUp; dsimp only; split <;> exact pi_nav hb
  | pageDown =>
    unfold step at hr; simp only [hB] at hr; have hx := hvis hr; cases hx
    unfold pageDown; dsimp only
    repeat' split
    all_goals first
      | (refine pi_nav (hst _ _ ?_); exact hb)
      | exact pi_nav hb
  | first => unfold step at hr; simp only [hB] at hr; have hx := hvis hr; cases hx; exact pi_nav hb
  | last =>
    unfold step at hr; simp only [hB] at hr; have hx := hvis hr; cases hx
    refine pi_nav (hst _ _ ?_); exact hb
  | mouse b p0 p1 can speed =>
    unfold step at hr; simp only [hB] at hr
    exact pi_mouse hb (hvis hr)
  | wheelUp n =>
    unfold step at hr; simp only [hB] at hr; have hx := hvis hr; cases hx
    unfold wheelUp; dsimp only; split
    · refine PI.core ?_ (core_updateDisplay g _); exact hb
    · exact hb
  | wheelDown n =>
    unfold step at hr; simp only [hB] at hr; have hx := hvis hr; cases hx
    have hw : ∀ j, PI p (wheelState g B j) := by
      intro j
      unfold wheelState; dsimp only; split
      · split
        · refine hst _ _ ?_; exact hb
        · exact hb
      · exact hb
    unfold wheelDown; dsimp only; split
    · exact (hw _).core (core_updateDisplay g _)
    · exact hw _
  | f1 =>
    unfold step at hr; simp only [hB] at hr; have hx := hvis hr; cases hx
    unfold f1; split
    · dsimp only
      refine PI.core ?_ (core_updateDisplay g _)
      refine hst _ _ (pi_layout ?_); exact hb
    · exact hb
  | typed it =>
    unfold step at hr; simp only [hB] at hr; have hx := hvis hr
    unfold typed at hx
    dsimp only at hx
    split at hx
    · cases hx
    · cases hx
      refine pi_insert (PI.core (pi_layout ?_) (core_updateDisplay g _)); exact hb
  | close => unfold step at hr; simp only at hr; have hx := hvis hr; cases hx

end Clink.Menu
