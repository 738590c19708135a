import Verif.Proof.MenuRoom

/-!
C53: The list of matches shows what is selected, and keys lead where one would expect.
-/

namespace Clink.Menu
open Spec

/-! Examples -/

/-- Columns of these widths. -/
def exWidths (l : List Int) : Widths := { list := l, padding := 2, rightJustify := false, maxMatch := 10 }

/-- `n` matches in columns of these widths. -/
def exItems (n : Nat) (l : List Int) (f : Int → Int := fun _ => 0) : Items :=
  { count := n, longest := 10, botlin := f, hasDesc := false, onlyShort := false, columns := fun _ _ => exWidths l }

def exCfg : Cfg := { horizontal := true }

/-- The list is opened on a terminal with 80 columns and 25 rows. -/
def exOpen (g : Cfg) (it : Items) : Option St := activate g it 80 25 0 false

/-- The list after some input. -/
def exRun (g : Cfg) : Option St → List Input → Option St
  | s, [] => s
  | s, i :: l => exRun g (s.bind fun s => step g s i) l

/-- What is looked at in the examples. -/
def exShow (s : Option St) : Option (Int × Int × Int × Int) := s.map fun s => (s.index, s.line, s.top, s.displayedRows)

theorem exOk (g : Cfg) (n : Nat) (l : List Int) (f : Int → Int) (h : 1 ≤ n) (h1 : l ≠ []) (h2 : ∀ w ∈ l, 0 ≤ w)
    (h3 : g.horizontal = true → l.length ≤ n) : ItemsOk g (exItems n l f) :=
  ⟨h, fun _ _ => h1, fun _ _ => h2, fun _ _ => (by decide : (0 : Int) ≤ 2), fun hh _ _ => h3 hh⟩

/-- 70 matches in two columns, 5 of 35 rows are shown; the same after Page Down, and at the end. -/
example : exShow (exOpen {} (exItems 70 [10, 10])) = some (0, 0, 0, 5) ∧
    exShow (exRun {} (exOpen {} (exItems 70 [10, 10])) [.pageDown, .pageDown]) = some (33, 33, 15, 20) ∧
    exShow (exRun {} (exOpen {} (exItems 70 [10, 10])) [.last]) = some (69, 69, 15, 20) := by decide +kernel

theorem Reach.inv {g : Cfg} {s : St} (h : Reach g s) : Inv g s := by
  induction h with
  | start hi h => exact Inv.activate hi h
  | step _ hv h ih => exact ih.step _ hv h

theorem CalmReach.good {g : Cfg} {s : St} (h : CalmReach g s) : Good g s := by
  induction h with
  | start hi hb h => exact Good.activate hi hb h
  | step _ hv hc h ih => exact ih.step _ hv hc h

theorem CalmReach.reach {g : Cfg} {s : St} (h : CalmReach g s) : Reach g s := by
  induction h with
  | start hi hb h => exact .start hi h
  | step _ hv hc h ih => exact .step ih hv h

theorem Reach.room {g : Cfg} {s : St} (h : Reach g s) : Room g s := by
  induction h with
  | start hi h => exact room_activate h
  | step _ hv h ih => exact room_step ih _ h

theorem Reach.lat {g : Cfg} {s : St} (h : Reach g s) : Lat g s := by
  induction h with
  | start hi h =>
    unfold activate at h
    dsimp only at h
    split at h
    · cases h
    · cases h
      refine lat_false (nav_latched ?_)
      show (updateLayout g _).latched = false
      rw [(updateLayout_place g _).latched]
  | step hr hv h ih => exact ih.step hr.inv _ h

/-! What is shown -/

/-- Every match is in exactly one cell of the grid, and there are no more rows than needed. -/
theorem C53_grid {g : Cfg} {s : St} (h : Reach g s) :
    (gridOf g s).Fits ∧ ∀ i, 0 ≤ i → i < s.count → ∃ r c, (gridOf g s).Cell i r c ∧ ∀ r' c', (gridOf g s).Cell i r' c' → r' = r ∧ c' = c := by
  have hf := h.inv.grid.fits
  exact ⟨hf, fun i h0 h1 => ⟨_, _, cell_of hf h0 h1, fun r' c' hc => cell_unique hc (cell_of hf h0 h1)⟩⟩

/-- There is always a selected match, and it is on one of the rows that are shown. -/
theorem C53_selected {g : Cfg} {s : St} (h : Reach g s) :
    0 ≤ s.index ∧ s.index < s.count ∧
      (0 < s.visibleRows → ∃ r c, (gridOf g s).Cell s.index r c ∧ 0 ≤ s.top ∧ s.top ≤ r ∧ r < s.top + s.displayedRows) := by
  have hi := h.inv
  refine ⟨hi.index0, hi.index1, fun hv => ?_⟩
  have x := cell_of hi.grid.fits hi.index0 (show s.index < (gridOf g s).count from hi.index1)
  rw [← rowOf_eq hi.index0] at x
  exact ⟨_, _, x, hi.top, hi.shown1 hv, hi.shown2 hv⟩

/-- The line, the list, the comment and the description fit on the terminal. -/
theorem C53_room {g : Cfg} {s : St} (h : Reach g s) (hv : 0 < s.visibleRows) (hr : 0 ≤ s.screenRows) (hc : 1 ≤ s.screenCols)
    (hl : 0 ≤ s.it.longest) :
    1 ≤ s.displayedRows ∧
    s.visBotlin + 1 + s.displayedRows + (if s.displayedRows < s.matchRows then 1 else 0) + (if s.descBelow then 2 else 0) < s.screenRows :=
  ⟨(h.inv.disp hv).1, h.room.fits hv hr hc hl (h.inv.disp hv).2⟩

/-- There are at most as many rows as the setting says (but two are allowed always); and when a match is so wide that
nothing fits beside it, then the description is below the list. -/
theorem C53_rows {g : Cfg} {s : St} (h : Reach g s) (hv : 0 < s.visibleRows) :
    s.displayedRows ≤ s.visibleRows ∧ (0 < g.maxRows → s.visibleRows ≤ max 2 g.maxRows) ∧
      (s.screenCols - 3 ≤ s.widths.maxMatch → s.descBelow = true) := by
  have hr := h.room
  have hi := h.inv
  refine ⟨by have := hi.disp hv; omega, fun hm => ?_, hr.2 (by have h0 := hi.index0; have h1 := hi.index1; omega)⟩
  have h1 := hr.1
  unfold roomFor at h1
  dsimp only at h1
  rw [h1]
  split <;> split <;> omega

example : (exOpen { maxRows := 3 } (exItems 70 [10, 10])).map (fun s => (s.displayedRows, s.visibleRows)) = some (3, 3) ∧
    (activate {} (exItems 70 [10, 10]) 12 25 0 false).map (fun s => (s.screenCols, s.widths.maxMatch, s.descBelow)) = some (12, 10, true) := by
  decide +kernel

/-- If there is room for two rows below the line, the message for the longest match (of at most `L` lines), the margin,
the comment and the description, then there are at least two rows, whatever the setting says. -/
theorem C53_visible {g : Cfg} {s : St} (h : Reach g s) {L : Int} (hc : 1 ≤ s.screenCols) (hl : 0 ≤ s.it.longest)
    (hL : s.it.longest + 3 ≤ L * s.screenCols)
    (hroom : s.visBotlin + 1 + L + 2 + (if s.descBelow then 2 else 0) + 1 + 2 ≤ s.screenRows) : 2 ≤ s.visibleRows := by
  have h1 := h.room.1
  have hq : (s.it.longest + 3 + s.screenCols - 1).tdiv s.screenCols ≤ L := by
    rw [Int.tdiv_eq_ediv_of_nonneg (by omega)]
    apply Int.le_of_lt_add_one
    apply Int.ediv_lt_of_lt_mul (by omega)
    rw [Int.add_mul]
    omega
  unfold roomFor at h1
  dsimp only at h1
  rw [h1]
  generalize (s.it.longest + 3 + s.screenCols - 1).tdiv s.screenCols = q at *
  generalize s.screenRows.tdiv 10 = t at *
  split <;> split at hroom <;> split <;> split <;> split <;> omega

example : (exOpen { maxRows := 1 } (exItems 70 [10, 10])).map (fun s => (s.visibleRows, decide (s.it.longest + 3 ≤ 1 * s.screenCols),
    decide (s.visBotlin + 1 + 1 + 2 + (if s.descBelow then 2 else 0) + 1 + 2 ≤ s.screenRows))) = some (2, true, true) := by
  decide +kernel

/-- The rows that are shown are as many as there is room for, or all; or, in a preview, as many as the setting says, and
then there are at least two more. -/
theorem C53_more {g : Cfg} {s : St} (h : CalmReach g s) (hv : 0 < s.visibleRows) :
    s.displayedRows = min s.visibleRows s.matchRows ∨
      (s.expanded = false ∧ s.displayedRows = min s.visibleRows g.preview ∧ g.preview + 2 ≤ s.matchRows) := by
  have hd := (h.good.pict hv).disp
  unfold rowsFor showMore at hd
  by_cases hc : (!s.expanded && decide (g.preview + 1 < s.matchRows)) = true
  · rw [if_pos hc] at hd
    simp at hc
    exact .inr ⟨hc.1, hd, by omega⟩
  · rw [if_neg hc] at hd
    exact .inl hd

example : (exOpen {} (exItems 70 [10, 10])).map (fun s => (s.displayedRows, s.visibleRows, s.matchRows, s.expanded)) = some (5, 20, 35, false) := by
  decide +kernel

/-- The screen shows the rows from `top` on with the selected match highlighted and nothing else, and a comment below if
these are not all rows. -/
theorem C53_screen {g : Cfg} {s : St} (h : CalmReach g s) (hv : 0 < s.visibleRows) :
    Picture (gridOf g s) s.index s.top s.displayedRows.toNat s.screen ∧ s.top + s.displayedRows ≤ s.matchRows := by
  have hp := h.good.pict hv
  have hd := h.reach.inv.disp hv
  have ht := hp.top
  exact ⟨hp.pic, by omega⟩

/-- One match is highlighted on the screen, and it is the selected one. -/
theorem C53_highlight {g : Cfg} {s : St} (h : CalmReach g s) (hv : 0 < s.visibleRows) :
    (∃ (r : Nat) (l : List (Int × Bool)), r < s.displayedRows ∧ s.screen r = .items l ∧ (s.index, true) ∈ l) ∧
      ∀ (r : Nat) (l : List (Int × Bool)) (i : Int), s.screen r = .items l → (i, true) ∈ l → i = s.index := by
  obtain ⟨⟨p1, p2, p3⟩, p4⟩ := C53_screen h hv
  have hi := h.reach.inv
  have hd := hi.disp hv
  have ht := hi.top
  have h1 := hi.shown1 hv
  have h2 := hi.shown2 hv
  constructor
  · refine ⟨(rowOf g s s.index - s.top).toNat, _, by omega, p1 _ (by omega), ?_⟩
    refine List.mem_map.2 ⟨s.index, ?_, by simp⟩
    have hr := rowOf_range hi.grid hi.index0 hi.index1
    have e : s.top + ((rowOf g s s.index - s.top).toNat : Int) = rowOf g s s.index := by omega
    rw [e]
    exact (mem_row hi.grid.fits hr.1 hr.2).2 ⟨hi.index0, hi.index1, (rowOf_eq hi.index0).symm⟩
  · intro r l i hl hm
    by_cases hr : r < s.displayedRows.toNat
    · rw [p1 r hr] at hl
      cases hl
      obtain ⟨k, _, hk⟩ := List.mem_map.1 hm
      have hb := congrArg Prod.snd hk
      have ha := congrArg Prod.fst hk
      have hb : decide (k = s.index) = true := hb
      have ha : k = i := ha
      rw [← ha]; simpa using hb
    · by_cases he : r = s.displayedRows.toNat
      · subst he
        split at p2
        · rcases p2 with p2 | p2 <;> rw [p2] at hl <;> cases hl
        · rw [p2] at hl; cases hl
      · rw [p3 r (by omega)] at hl; cases hl

/-! Keys -/

/-- What `before` leaves alone. -/
theorem before_same (g : Cfg) (s : St) (i : Input) : gridOf g (before s i) = gridOf g s ∧ (before s i).index = s.index ∧
    (before s i).count = s.count ∧ (before s i).line = s.line ∧ (before s i).top = s.top ∧ (before s i).visibleRows = s.visibleRows ∧
    (before s i).matchRows = s.matchRows := by
  unfold before; dsimp only; split <;> exact ⟨rfl, rfl, rfl, rfl, rfl, rfl, rfl⟩

theorem before_free {s : St} (h : s.latched = false) (i : Input) : (before s i).latched = false := by
  unfold before; dsimp only; split
  · show (if i.id ≠ 63 ∧ i.id ≠ 65 then false else s.latched) = false
    rw [h]; split <;> rfl
  · exact h

theorem before_held {s : St} (h : s.latched = true) (i : Input) (hi : i.id = 63 ∨ i.id = 65) : (before s i).latched = true := by
  unfold before; dsimp only; split
  · show (if i.id ≠ 63 ∧ i.id ≠ 65 then false else s.latched) = true
    rw [if_neg (by omega)]; exact h
  · exact h

theorem step_key {g : Cfg} {s r : St} {i : Input} (hz : ∀ a b c, i ≠ .resize a b c) (h : step g s i = some r) :
    0 < s.visibleRows := by
  cases i <;> unfold step at h <;> first
    | exact absurd rfl (hz _ _ _)
    | (dsimp only at h
       split at h
       · cases h
       · omega)

theorem step_of {g : Cfg} {s r t : St} {i : Input} (h : step g s i = some r)
    (e : step g s i = if s.count = 0 ∨ s.visibleRows ≤ 0 then none else some t) : r = t := by
  rw [h] at e
  split at e
  · cases e
  · cases e; rfl

/-- The next match: along the rows in a horizontal list, along the columns in a vertical one. -/
theorem C53_next {g : Cfg} {s r : St} (h : Reach g s) (hs : step g s .next = some r) :
    (if g.horizontal then (gridOf g s).NextAcross s.index r.index else (gridOf g s).NextDown s.index r.index) ∨
    (if g.horizontal then (gridOf g s).LastAcross s.index else (gridOf g s).LastDown s.index) ∧
      r.index = if g.wrap then 0 else s.index := by
  have e := step_of hs (t := next g (before s .next)) rfl
  obtain ⟨_, b, c, _⟩ := before_same g s .next
  have hi := h.inv
  have h0 := hi.index0
  have h1 := hi.index1
  have ei := next_index (g := g) (s := before s .next)
  rw [← e, b, c] at ei
  by_cases hn : s.index + 1 < s.count
  · left
    rw [if_neg (by omega)] at ei
    rw [ei]
    exact next_number hi.grid.fits h0 hn
  · right
    have e : s.index = (gridOf g s).count - 1 := by show s.index = s.count - 1; omega
    rw [if_pos (by omega)] at ei
    constructor
    · have := last_number hi.grid.fits
      rw [← e] at this
      exact this
    · rw [ei, show s.count - 1 = s.index by omega]

/-- The match before. -/
theorem C53_prev {g : Cfg} {s r : St} (h : Reach g s) (hs : step g s .prev = some r) :
    (if g.horizontal then (gridOf g s).NextAcross r.index s.index else (gridOf g s).NextDown r.index s.index) ∨
    s.index = 0 ∧ if g.wrap then (if g.horizontal then (gridOf g s).LastAcross r.index else (gridOf g s).LastDown r.index)
      else r.index = 0 := by
  have e := step_of hs (t := prev g (before s .prev)) rfl
  obtain ⟨_, b, c, _⟩ := before_same g s .prev
  have hi := h.inv
  have h0 := hi.index0
  have h1 := hi.index1
  have ei := prev_index (g := g) (s := before s .prev)
  rw [← e, b, c] at ei
  by_cases hn : 0 ≤ s.index - 1
  · left
    rw [if_neg (by omega)] at ei
    rw [ei]
    have := next_number hi.grid.fits hn (show s.index - 1 + 1 < s.count by omega)
    rw [show s.index - 1 + 1 = s.index by omega] at this
    exact this
  · right
    rw [if_pos (by omega)] at ei
    refine ⟨by omega, ?_⟩
    split
    · rename_i hw
      rw [if_pos hw] at ei
      rw [ei]
      exact last_number hi.grid.fits
    · rename_i hw
      rw [if_neg hw] at ei
      exact ei

example : exShow (exRun exCfg (exOpen exCfg (exItems 8 [10, 10, 10])) [.next, .next, .next]) = some (3, 3, 0, 3) ∧
    exShow (exRun exCfg (exOpen exCfg (exItems 8 [10, 10, 10])) [.prev, .prev]) = some (6, 6, 0, 3) := by decide +kernel

/-- To the right: the next match along the rows.  After the last one there is the first one, or the end is reached. -/
theorem C53_right {g : Cfg} {s r : St} (h : Reach g s) (hl : s.latched = false) (hs : step g s .right = some r ∨ step g s .wheelRight = some r) :
    (gridOf g s).NextAcross s.index r.index ∨
      (gridOf g s).LastAcross s.index ∧ r.index = if g.wrap then 0 else s.count - 1 := by
  rcases hs with hs | hs
  · have e := step_of hs (t := right g (before s .right)) rfl
    obtain ⟨a, b, c, _⟩ := before_same g s .right
    have := right_spec (h.inv.before .right) (before_free hl _)
    rw [a, b, c, ← e] at this
    exact this
  · have e := step_of hs (t := right g (before s .wheelRight)) rfl
    obtain ⟨a, b, c, _⟩ := before_same g s .wheelRight
    have := right_spec (h.inv.before .wheelRight) (before_free hl _)
    rw [a, b, c, ← e] at this
    exact this

/-- Down: the next match along the columns. -/
theorem C53_down {g : Cfg} {s r : St} (h : Reach g s) (hl : s.latched = false) (hs : step g s .down = some r) :
    (gridOf g s).NextDown s.index r.index ∨
      (gridOf g s).LastDown s.index ∧ r.index = if g.wrap then 0 else s.count - 1 := by
  have e := step_of hs (t := down g (before s .down)) rfl
  obtain ⟨a, b, c, _⟩ := before_same g s .down
  have := down_spec (h.inv.before .down) (before_free hl _)
  rw [a, b, c, ← e] at this
  exact this

/-- To the left: the match before along the rows. -/
theorem C53_left {g : Cfg} {s r : St} (h : Reach g s) (hs : step g s .left = some r ∨ step g s .wheelLeft = some r) :
    (gridOf g s).NextAcross r.index s.index ∨
      s.index = 0 ∧ if g.wrap then (gridOf g s).LastAcross r.index else r.index = 0 := by
  rcases hs with hs | hs
  · have e := step_of hs (t := left g (before s .left)) rfl
    obtain ⟨a, b, c, _⟩ := before_same g s .left
    have := left_spec (h.inv.before .left)
    rw [a, b, ← e] at this
    exact this
  · have e := step_of hs (t := left g (before s .wheelLeft)) rfl
    obtain ⟨a, b, c, _⟩ := before_same g s .wheelLeft
    have := left_spec (h.inv.before .wheelLeft)
    rw [a, b, ← e] at this
    exact this

/-- Up: the match before along the columns. -/
theorem C53_up {g : Cfg} {s r : St} (h : Reach g s) (hs : step g s .up = some r) :
    (gridOf g s).NextDown r.index s.index ∨
      s.index = 0 ∧ if g.wrap then (gridOf g s).LastDown r.index else r.index = 0 := by
  have e := step_of hs (t := up g (before s .up)) rfl
  obtain ⟨a, b, c, _⟩ := before_same g s .up
  have := up_spec (h.inv.before .up)
  rw [a, b, ← e] at this
  exact this

/-- A vertical list of 7 in 3 columns:
```
0 3 6
1 4
2 5
```
-/
example : exShow (exRun {} (exOpen {} (exItems 7 [10, 10, 10])) [.right, .right, .right]) = some (1, 1, 0, 3) ∧
    exShow (exRun {} (exOpen {} (exItems 7 [10, 10, 10])) [.left]) = some (5, 5, 0, 3) ∧
    exShow (exRun {} (exOpen {} (exItems 7 [10, 10, 10])) [.right, .right, .down]) = some (0, 0, 0, 3) := by decide +kernel

/-- When the end is reached that has been the last match, and Right and Down do nothing until another key is pressed. -/
theorem C53_latched {g : Cfg} {s : St} (h : Reach g s) (hl : s.latched = true) :
    g.wrap = false ∧ s.index = s.count - 1 ∧
      (∀ i r, i = .right ∨ i = .down → step g s i = some r → r.index = s.index ∧ r.latched = true) ∧
      (∀ i r, (∀ n : Int × Int × Int, i ≠ .resize n.1 n.2.1 n.2.2) → i ≠ .right → i ≠ .down → i ≠ .wheelRight → step g s i = some r → r.latched = false) := by
  obtain ⟨a, b, c⟩ := h.lat hl
  refine ⟨b, a, fun i r hi hs => ?_, fun i r hz h1 h2 h3 hs => ?_⟩
  · have hB : ∀ i : Input, i = .right ∨ i = .down → (before s i).latched = true := by
      rintro i (rfl | rfl)
      · exact before_held hl _ (Or.inr rfl)
      · exact before_held hl _ (Or.inl rfl)
    have hk : ∀ B M, B.latched = true → (moveHigher g B M).index = B.index ∧ (moveHigher g B M).latched = true := by
      intro B M hB
      unfold moveHigher higher
      rw [if_pos hB]
      exact ⟨rfl, hB⟩
    have hn : ∀ B, B.latched = true → B.index = B.count - 1 → (arrowNext g B).index = B.index ∧ (arrowNext g B).latched = true := by
      intro B hB hc
      refine ⟨by rw [arrowNext_index, next_index, if_pos (by omega), if_neg (by simp [b])]; exact hc.symm, ?_⟩
      unfold arrowNext
      rw [(next_flags g _).1]
      split
      · rfl
      · exact hB
    have hbs := before_same g s i
    have hBl := hB i hi
    rcases hi with rfl | rfl
    · have e := step_of hs (t := right g (before s .right)) rfl
      rw [e]
      unfold right
      split
      · rw [← hbs.2.1]; exact hn _ hBl (by rw [hbs.2.1, hbs.2.2.1]; exact a)
      · rw [← hbs.2.1]; exact hk _ _ hBl
    · have e := step_of hs (t := down g (before s .down)) rfl
      rw [e]
      unfold down
      split
      · rw [← hbs.2.1]; exact hk _ _ hBl
      · rw [← hbs.2.1]; exact hn _ hBl (by rw [hbs.2.1, hbs.2.2.1]; exact a)
  · cases hr : r.latched
    · rfl
    · exfalso
      have := (h.lat.step h.inv i hs hr).2.2
      have hp := pi_step i hz hs
      unfold PI at hp
      rw [hp] at this
      cases i with
      | right => exact h1 rfl
      | down => exact h2 rfl
      | wheelRight => exact h3 rfl
      | mouse b => cases b <;> simp [Input.id] at this
      | _ => simp [Input.id] at this

/-- In this list the end is reached when going down from 5, and then nothing moves. -/
example : (exRun { wrap := false } (exOpen { wrap := false } (exItems 6 [10, 10])) [.last, .down]).map (·.latched) = some true ∧
    exShow (exRun { wrap := false } (exOpen { wrap := false } (exItems 6 [10, 10])) [.last, .down, .down, .right]) = some (5, 5, 0, 3) := by
  decide +kernel

/-- Page Up: further up in the same column, by less than a page; from the first row to the first match. -/
theorem C53_pageUp {g : Cfg} {s r : St} (h : Reach g s) (hs : step g s .pageUp = some r) :
    (∃ c, (gridOf g s).Cell s.index 0 c ∧ r.index = 0) ∨
      ∃ y c y', (gridOf g s).Cell s.index y c ∧ (gridOf g s).Cell r.index y' c ∧ y' < y ∧ y - y' < s.visibleRows := by
  have e := step_of hs (t := pageUp g (before s .pageUp)) rfl
  obtain ⟨a, b, c, d, f, hv, _⟩ := before_same g s .pageUp
  have := pageUp_spec (h.inv.before .pageUp) (by rw [hv]; exact step_key (fun _ _ _ => by simp) hs)
  rw [a, b, hv, ← e] at this
  exact this

/-- Page Down: further down in the same column, by less than a page.  It goes to the last match only from the last row, or
if there would be no match there. -/
theorem C53_pageDown {g : Cfg} {s r : St} (h : Reach g s) (hs : step g s .pageDown = some r) :
    (r.index = s.count - 1 ∧ ∃ y c, (gridOf g s).Cell s.index y c ∧
      (y = s.matchRows - 1 ∨ ∃ y', y < y' ∧ y' < s.matchRows ∧ y' - y < s.visibleRows ∧ ∀ j, ¬ (gridOf g s).Cell j y' c)) ∨
      ∃ y c y', (gridOf g s).Cell s.index y c ∧ (gridOf g s).Cell r.index y' c ∧ y < y' ∧ y' - y < s.visibleRows := by
  have e := step_of hs (t := pageDown g (before s .pageDown)) rfl
  obtain ⟨a, b, c, d, f, hv, hm⟩ := before_same g s .pageDown
  have := pageDown_spec (h.inv.before .pageDown) (by rw [hv]; exact step_key (fun _ _ _ => by simp) hs)
  rw [a, b, c, hv, hm, ← e] at this
  exact this

example : exShow (exRun {} (exOpen {} (exItems 70 [10, 10])) [.pageDown, .pageDown, .pageUp]) = some (18, 18, 15, 20) := by decide +kernel

/-- Home and End. -/
theorem C53_first_last {g : Cfg} {s r : St} :
    (step g s .first = some r → r.index = 0) ∧ (step g s .last = some r → r.index = s.count - 1) := by
  refine ⟨fun hs => ?_, fun hs => ?_⟩
  · have e := step_of hs (t := navigated g { before s .first with index := 0 }) rfl
    rw [e, (nav_index g _).1]
  · have e := step_of hs (t := last g (before s .last)) rfl
    rw [e]
    unfold last
    rw [(nav_index g _).1, (core_setTop _ _).index, (before_same g s .last).2.2.1]

/-- The wheel moves the selection up in its column; the line stays as it is. -/
theorem C53_wheelUp {g : Cfg} {s r : St} (h : Reach g s) (n : Nat) (hs : step g s (.wheelUp n) = some r) :
    (∃ y c, (gridOf g s).Cell s.index y c ∧ (gridOf g s).Cell r.index (max 0 (y - n)) c) ∧ r.line = s.line := by
  have e := step_of hs (t := wheelUp g (before s (.wheelUp n)) n) rfl
  obtain ⟨a, b, c, d, _⟩ := before_same g s (.wheelUp n)
  have := wheelUp_spec (h.inv.before (.wheelUp n)) n
  rw [a, b, d, ← e] at this
  exact this

/-- The wheel moves the selection down in its column, or to the last match if there is none there. -/
theorem C53_wheelDown {g : Cfg} {s r : St} (h : Reach g s) (n : Nat) (hs : step g s (.wheelDown n) = some r) :
    (∃ y c, (gridOf g s).Cell s.index y c ∧ ((gridOf g s).Cell r.index (min (s.matchRows - 1) (y + n)) c ∨
      r.index = s.count - 1 ∧ ∀ j, ¬ (gridOf g s).Cell j (min (s.matchRows - 1) (y + n)) c)) ∧ r.line = s.line := by
  have e := step_of hs (t := wheelDown g (before s (.wheelDown n)) n) rfl
  obtain ⟨a, b, c, d, _, _, hm⟩ := before_same g s (.wheelDown n)
  have := wheelDown_spec (h.inv.before (.wheelDown n)) n
  rw [a, b, c, d, hm, ← e] at this
  exact this

example : exShow (exRun {} (exOpen {} (exItems 9 [10, 10])) [.right, .wheelDown 3, .wheelUp 1]) = some (7, 5, 0, 5) ∧
    exShow (exRun {} (exOpen {} (exItems 9 [10, 10])) [.right, .wheelDown 4]) = some (8, 5, 0, 5) := by decide +kernel

/-- A click on a match selects it, puts it in the line, and does not scroll. -/
theorem C53_click {g : Cfg} {s : St} (h : Reach g s) (hv : 0 < s.visibleRows) {p0 p1 speed : Int} {can : Bool} (hp0 : p0 < s.screenCols)
    (hbar : (s.scrollCar = true ∧ p0 ≠ s.scrollColumn) ∨ (s.scrollCar = false ∧ s.barClicked = false))
    (hp1 : 0 ≤ p1) (hp1' : p1 < s.displayedRows) {i : Int} {c : Nat} (hc : (gridOf g s).Cell i (s.top + p1) c)
    (hu : Under s.widths.list s.widths.padding p0 c) (hcl : c < s.widths.list.length) :
    ∃ r, step g s (.mouse .click p0 p1 can speed) = some r ∧ r.index = i ∧ r.line = i ∧ (Steady s → r.top = s.top) := by
  have hI := h.inv.before (.mouse .click p0 p1 can speed)
  have hcount := h.inv.grid.count
  have key : ∀ B : St, before s (.mouse .click p0 p1 can speed) = B → (B.screenCols = s.screenCols ∧ B.scrollCar = s.scrollCar ∧
      B.scrollColumn = s.scrollColumn ∧ B.barClicked = s.barClicked ∧ B.displayedRows = s.displayedRows ∧ B.top = s.top ∧
      B.widths = s.widths ∧ B.visibleRows = s.visibleRows ∧ gridOf g B = gridOf g s ∧ B.it = s.it ∧ B.visBotlin = s.visBotlin) := by
    intro B hB
    subst hB
    unfold before; dsimp only; split <;> exact ⟨rfl, rfl, rfl, rfl, rfl, rfl, rfl, rfl, rfl, rfl, rfl⟩
  have e : step g s (.mouse .click p0 p1 can speed) =
      if s.count = 0 ∨ s.visibleRows ≤ 0 then none else mouse g (before s (.mouse .click p0 p1 can speed)) .click p0 p1 can speed := rfl
  rw [if_neg (by omega)] at e
  generalize hB : before s (.mouse .click p0 p1 can speed) = B at hI e
  obtain ⟨k1, k2, k3, k4, k5, k6, k7, k8, k9, k10, k11⟩ := key B hB
  obtain ⟨r, hr, a, b, d⟩ := click_spec (p0 := p0) (p1 := p1) (speed := speed) (can := can) (i := i) (c := c) hI (by omega) (by omega)
    (by rw [k2, k3, k4]; exact hbar) hp1 (by omega) (by rw [k9, k6]; exact hc) (by rw [k7]; exact hu) (by rw [k7]; exact hcl)
  exact ⟨r, by rw [e]; exact hr, a, b, fun hst => by rw [d (hst.same k10 k11), k6]⟩

example : exShow (exRun {} (exOpen {} (exItems 70 [10, 10])) [.mouse .click 13 2 true 1]) = some (37, 37, 0, 5) ∧
    Under [10, 10] 2 13 1 ∧ (gridOf {} { it := exItems 70 [10, 10], screenCols := 80, screenRows := 25, visBotlin := 0, widths := exWidths [10, 10], matchRows := 35, matchCols := 2 }).Cell 37 2 1 := by
  refine ⟨by decide +kernel, ⟨by decide, Or.inl ⟨10, rfl, by decide⟩⟩, by decide, by decide, by decide, by decide, by decide, by decide⟩

/-- When the text changes the first match is selected and put in the line, unless there is none. -/
theorem C53_typed {g : Cfg} {s : St} (it : Items) (hv : 0 < s.visibleRows) (hc : 1 ≤ s.count) :
    if it.count = 0 then step g s (.typed it) = none
    else ∃ r, step g s (.typed it) = some r ∧ r.index = 0 ∧ r.line = 0 ∧ r.it = it := by
  have e : step g s (.typed it) = if s.count = 0 ∨ s.visibleRows ≤ 0 then none else typed g (before s (.typed it)) it := rfl
  rw [if_neg (by omega)] at e
  rw [e]
  unfold typed
  dsimp only
  split
  · rfl
  · refine ⟨_, rfl, ?_, ?_, ?_⟩
    · rw [(insert_index g _).1, (core_updateDisplay g _).index, (updateLayout_place g _).index]; rfl
    · rw [(insert_line g _).1, (core_updateDisplay g _).index, (updateLayout_place g _).index]; rfl
    · rw [insert_it, (core_updateDisplay g _).it, (updateLayout_place g _).it]

/-- The selected match is in the line, as long as the wheel is not used. -/
theorem C53_line {g : Cfg} :
    (∀ {it : Items} {c r b : Int} {yes : Bool} {s : St}, activate g it c r b yes = some s → s.line = s.index) ∧
    ∀ {s r : St} {i : Input}, s.line = s.index → (∀ n, i ≠ .wheelUp n ∧ i ≠ .wheelDown n) → step g s i = some r → r.line = r.index := by
  refine ⟨fun {it c r b yes s} h => ?_, fun {s r i} h hw hs => step_line h i hw hs⟩
  unfold activate at h
  dsimp only at h
  split at h
  · cases h
  · cases h; exact nav_line ..

/-- The list is closed by other keys, when there is no match left, by a double click, by a click above it, and by any key
when there is no room for it. -/
theorem C53_closed {g : Cfg} {s : St} (h : Reach g s) (i : Input) (hs : step g s i = none) :
    s.visibleRows ≤ 0 ∨ i = .close ∨ (∃ it, i = .typed it ∧ it.count = 0) ∨ (∃ p0 p1 can speed, i = .mouse .double p0 p1 can speed) ∨
      ∃ p0 p1 can speed, i = .mouse .click p0 p1 can speed ∧ p1 < 0 := by
  have hc := h.inv.grid.count
  by_cases hv : s.visibleRows ≤ 0
  · exact Or.inl hv
  · right
    have hz : ¬ (s.count = 0 ∨ s.visibleRows ≤ 0) := by omega
    have hno : ∀ {x : Option St}, (if s.count = 0 ∨ s.visibleRows ≤ 0 then none else x) = none → x = none := by
      intro x hx; rw [if_neg hz] at hx; exact hx
    cases i with
    | close => exact Or.inl rfl
    | resize a b c => cases hs
    | typed it =>
      unfold step at hs
      have hx := hno hs
      unfold typed at hx
      dsimp only at hx
      split at hx
      · rename_i h0; exact Or.inr (Or.inl ⟨it, rfl, h0⟩)
      · cases hx
    | mouse b p0 p1 can speed =>
      unfold step at hs
      have hx := hno hs
      have hm : ∀ S row rev sc, mousePos g S b p0 row rev sc = none → b = .double := by
        intro S row rev sc hm
        unfold mousePos at hm
        split at hm
        · cases hm
        · split at hm
          · assumption
          · cases hm
      have : b = .double ∨ (b ≠ .drag ∧ p1 < 0) := by
        unfold mouse at hx
        dsimp only at hx
        generalize barState (before s (.mouse b p0 p1 can speed)) b p0 p1 = S at hx
        split at hx
        · cases hx
        · split at hx
          · exact Or.inl (hm _ _ _ _ hx)
          · split at hx
            · split at hx
              · split at hx
                · exact Or.inl (hm _ _ _ _ hx)
                · cases hx
              · exact Or.inr ⟨by assumption, by assumption⟩
            · split at hx
              · cases hx
              · split at hx
                · split at hx
                  · exact Or.inl (hm _ _ _ _ hx)
                  · cases hx
                · cases hx
      cases b with
      | double => exact Or.inr (Or.inr (Or.inl ⟨_, _, _, _, rfl⟩))
      | drag =>
        rcases this with h | h
        · cases h
        · exact absurd rfl h.1
      | click =>
        rcases this with h | h
        · cases h
        · exact Or.inr (Or.inr (Or.inr ⟨_, _, _, _, rfl, h.2⟩))
    | _ => unfold step at hs; have hx := hno hs; cases hx

/-! What goes wrong -/

theorem of_map {α : Type} {o : Option St} {f : St → α} {v : α} (h : o.map f = some v) : ∃ s, o = some s ∧ f s = v := by
  cases o with
  | none => cases h
  | some s => exact ⟨s, rfl, by simpa using h⟩

/-- If there is a list, it can be reached. -/
def ReachO (g : Cfg) (o : Option St) : Prop := ∀ s, o = some s → Reach g s

theorem reach_open {g : Cfg} {it : Items} (hi : ItemsOk g it) (yes : Bool) : ReachO g (activate g it 80 25 0 yes) :=
  fun _ h => .start hi h

theorem reach_step {g : Cfg} {o : Option St} {i : Input} (h : ReachO g o) (hv : ∀ s, o = some s → Valid g s i) :
    ReachO g (o.bind fun s => step g s i) := by
  intro s hs
  cases o with
  | none => cases hs
  | some t => exact .step (h t rfl) (hv t rfl) hs

theorem reach_mouse {g : Cfg} {o : Option St} {b : Button} {p0 p1 speed : Int} {can : Bool} (h : ReachO g o)
    (hc : o.map (·.screenCols) = some 80) (h0 : 0 ≤ p0) (h1 : p0 < 80) (h2 : 0 ≤ speed) :
    ReachO g (o.bind fun s => step g s (.mouse b p0 p1 can speed)) := by
  refine reach_step h fun s hs => ⟨h0, ?_, h2⟩
  rw [hs] at hc
  have : s.screenCols = 80 := by simpa using hc
  omega

/-- Neither the mouse nor text. -/
def Input.plain : Input → Bool
  | .mouse .. | .typed _ => false
  | _ => true

theorem reach_keys {g : Cfg} (l : List Input) (hl : l.all Input.plain = true) : ∀ {o : Option St}, ReachO g o → ReachO g (exRun g o l) := by
  induction l with
  | nil => exact fun h => h
  | cons i l ih =>
    intro o h
    simp only [List.all_cons, Bool.and_eq_true] at hl
    refine ih hl.2 (reach_step h fun s _ => ?_)
    cases i <;> first | exact trivial | cases hl.1

theorem reach_ex {g : Cfg} (n : Nat) (l : List Int) (f : Int → Int) (yes : Bool) (h : 1 ≤ n) (h1 : l ≠ []) (h2 : ∀ w ∈ l, 0 ≤ w)
    (h3 : g.horizontal = true → l.length ≤ n) : ReachO g (activate g (exItems n l f) 80 25 0 yes) :=
  reach_open (exOk g n l f h h1 h2 h3) yes

/-- The list is opened and Page Down is pressed: rows 2 to 21 of 35, and the selected match is on the 17th of them. -/
example : ∃ s, CalmReach {} s ∧ 0 < s.visibleRows ∧ s.screen 16 = .items [(17, true), (52, false)] ∧ s.screen 20 = .rows 2 21 35 := by
  obtain ⟨r, hr, hw⟩ := of_map (o := exRun {} (exOpen {} (exItems 70 [10, 10])) [.pageDown])
    (f := fun r => (decide (0 < r.visibleRows), r.screen 16, r.screen 20))
    (v := (true, .items [(17, true), (52, false)], .rows 2 21 35)) (by decide +kernel)
  have hr : ((exOpen {} (exItems 70 [10, 10])).bind fun s => step {} s .pageDown) = some r := hr
  obtain ⟨s, hs, hr⟩ := Option.bind_eq_some_iff.1 hr
  simp only [Prod.mk.injEq, decide_eq_true_eq] at hw
  exact ⟨r, .step (i := .pageDown) (.start (exOk {} 70 [10, 10] _ (by decide) (by decide) (by decide) (by decide)) (fun _ _ _ => rfl) hs) trivial trivial hr, hw⟩

/-- C53 (more columns than matches): this happens when `match.fit_columns` is off.  Down then selects a match that does not
exist, and so does Up. -/
theorem C53_few_violated :
    (exRun exCfg (exOpen exCfg (exItems 3 [10, 10, 10, 10])) [.down, .down, .down]).map (fun s => (s.index, s.count)) = some (3, 3) ∧
    (exRun exCfg (exOpen exCfg (exItems 3 [10, 10, 10, 10])) [.up]).map (fun s => s.index) = some (-1) := by decide +kernel

/-- C53 (scroll bar): a click on the scroll bar while few rows are shown scrolls beyond the end; the comment is then "rows
31 to 50 of 35". -/
theorem C53_bar_violated : ∃ s, Reach {} s ∧ s.matchRows < s.top + s.displayedRows ∧ s.screen 20 = .rows 31 50 35 := by
  have hR : ReachO {} (exRun {} (exOpen {} (exItems 70 [10, 10])) [.mouse .click 78 4 true 1]) :=
    reach_mouse (o := exOpen {} (exItems 70 [10, 10])) (b := .click) (p0 := 78) (p1 := 4) (speed := 1) (can := true) (reach_ex 70 [10, 10] _ false (by decide) (by decide) (by decide) (by decide)) (by decide +kernel) (by decide) (by decide) (by decide)
  obtain ⟨s, hs, hv⟩ := of_map (o := exRun {} (exOpen {} (exItems 70 [10, 10])) [.mouse .click 78 4 true 1])
    (f := fun s => (decide (s.matchRows < s.top + s.displayedRows), s.screen 20)) (v := (true, .rows 31 50 35)) (by decide +kernel)
  simp only [Prod.mk.injEq, decide_eq_true_eq] at hv
  exact ⟨s, hR s hs, hv⟩

/-- C53 (lower line): when the line gets lower the list is scrolled beyond the end. -/
theorem C53_lower_violated : ∃ s, Reach {} s ∧ s.matchRows < s.top + s.displayedRows := by
  have hR : ReachO {} (exRun {} (activate {} (exItems 70 [10, 10] (fun i => if i = 69 then 2 else 0)) 80 25 0 true) [.last, .prev]) :=
    reach_keys [.last, .prev] rfl (reach_ex 70 [10, 10] _ true (by decide) (by decide) (by decide) (by decide))
  obtain ⟨s, hs, hv⟩ := of_map (o := exRun {} (activate {} (exItems 70 [10, 10] (fun i => if i = 69 then 2 else 0)) 80 25 0 true) [.last, .prev])
    (f := fun s => decide (s.matchRows < s.top + s.displayedRows)) (v := true) (by decide +kernel)
  exact ⟨s, hR s hs, by simpa using hv⟩

/-- C53 (resize): the comment is not written again when the size of the terminal changes. -/
theorem C53_resize_violated : ∃ s, Reach {} s ∧ s.displayedRows < s.matchRows ∧ s.screen s.displayedRows.toNat = .unknown := by
  have hR : ReachO {} (exRun {} (exOpen {} (exItems 70 [10, 10])) [.resize 60 25 0]) :=
    reach_keys _ rfl (reach_ex 70 [10, 10] _ false (by decide) (by decide) (by decide) (by decide))
  obtain ⟨s, hs, hv⟩ := of_map (o := exRun {} (exOpen {} (exItems 70 [10, 10])) [.resize 60 25 0])
    (f := fun s => (decide (s.displayedRows < s.matchRows), s.screen s.displayedRows.toNat)) (v := (true, .unknown)) (by decide +kernel)
  simp only [Prod.mk.injEq, decide_eq_true_eq] at hv
  exact ⟨s, hR s hs, hv⟩

/-- C53 (typing): when the line gets higher with the first match for a new text, the list is erased and not drawn again. -/
theorem C53_typed_violated :
    (exRun {} (exOpen {} (exItems 70 [10, 10])) [.typed (exItems 40 [10, 10] fun _ => 1)]).map
      (fun s => (s.displayedRows, s.screen 0, s.screen 4, s.screen 5)) = some (5, .blank, .blank, .blank) := by decide +kernel

/-- C53 (wheel): the wheel selects a match that is not in the line. -/
theorem C53_wheel_violated : ∃ s, Reach {} s ∧ s.index = 2 ∧ s.line = 0 := by
  have hR : ReachO {} (exRun {} (exOpen {} (exItems 70 [10, 10])) [.wheelDown 2]) :=
    reach_keys _ rfl (reach_ex 70 [10, 10] _ false (by decide) (by decide) (by decide) (by decide))
  obtain ⟨s, hs, hv⟩ := of_map (o := exRun {} (exOpen {} (exItems 70 [10, 10])) [.wheelDown 2])
    (f := fun s => (s.index, s.line)) (v := (2, 0)) (by decide +kernel)
  simp only [Prod.mk.injEq] at hv
  exact ⟨s, hR s hs, hv⟩

/-- C53 (no scroll bar any more): after a click on the scroll bar, and then without one, a click on match 6 selects match 2. -/
theorem C53_stuck_violated : ∃ s r, Reach {} s ∧ s.scrollCar = false ∧ (gridOf {} s).Cell 6 (s.top + 2) 1 ∧
    Under s.widths.list s.widths.padding 12 1 ∧ 2 < s.displayedRows ∧ step {} s (.mouse .click 12 2 true 1) = some r ∧ r.index = 2 := by
  have h0 : ReachO {} (exOpen {} (exItems 70 [10, 10])) :=
    reach_ex 70 [10, 10] _ false (by decide) (by decide) (by decide) (by decide)
  have h1 := reach_mouse (b := .click) (p0 := 78) (p1 := 1) (speed := 1) (can := true) h0 (by decide +kernel) (by decide) (by decide) (by decide)
  have hR : ReachO {} (exRun {} (exOpen {} (exItems 70 [10, 10])) [.mouse .click 78 1 true 1, .typed (exItems 8 [10, 10])]) := by
    refine reach_step (i := .typed (exItems 8 [10, 10])) h1 fun s hs => ⟨fun _ => exOk _ _ _ _ (by decide) (by decide) (by decide) (by decide), ?_⟩
    have hb : ((exOpen {} (exItems 70 [10, 10])).bind fun s => step {} s (.mouse .click 78 1 true 1)).map (·.visBotlin) = some 0 := by
      decide +kernel
    rw [hs] at hb
    have : s.visBotlin = 0 := by simpa using hb
    exact this.symm
  obtain ⟨s, hs, hv⟩ := of_map (o := exRun {} (exOpen {} (exItems 70 [10, 10])) [.mouse .click 78 1 true 1, .typed (exItems 8 [10, 10])])
    (f := fun s => [!s.scrollCar, s.top == 0, s.displayedRows == 4, s.count == 8, s.matchRows == 4, s.matchCols == 2, s.widths.list == [10, 10],
      s.widths.padding == 2, (step {} s (.mouse .click 12 2 true 1)).map (·.index) == some 2])
    (v := List.replicate 9 true) (by decide +kernel)
  simp only [List.replicate, List.cons.injEq, Bool.not_eq_true', beq_iff_eq, and_true] at hv
  obtain ⟨a1, a2, a3, a4, a5, a6, a7, a8, a9⟩ := hv
  obtain ⟨r, hr, hi⟩ := of_map a9
  refine ⟨s, r, hR s hs, a1, ?_, ?_, by omega, hr, hi⟩
  · refine ⟨by omega, ?_, by decide, ?_, ?_, ?_⟩
    · show s.top + 2 < s.matchRows; omega
    · show 1 < s.matchCols; omega
    · show 6 < s.count; omega
    · show (6 : Int) = 1 * s.matchRows + (s.top + 2); omega
  · rw [a7, a8]
    exact ⟨by decide, Or.inl ⟨10, rfl, by decide⟩⟩

/-- Matches with short descriptions; there are two widths but one column. -/
def exShort : Items := { exItems 20 [10, 10] with hasDesc := true, onlyShort := true }

/-- C53 (one column): a click to the right of the column selects the last match, and not the one in that row. -/
theorem C53_beside_violated : ∃ s r, Reach {} s ∧ s.matchCols = 1 ∧ s.top = 0 ∧ s.displayedRows = 5 ∧
    step {} s (.mouse .click 14 1 true 1) = some r ∧ r.index = 19 := by
  have hR : ReachO {} (exOpen {} exShort) := reach_open (it := exShort) ⟨by decide, fun _ _ => List.cons_ne_nil _ _, fun _ _ => (by decide : ∀ w ∈ [(10 : Int), 10], 0 ≤ w), fun _ _ => (by decide : (0 : Int) ≤ 2), fun hh => by cases hh⟩ false
  obtain ⟨s, hs, hv⟩ := of_map (o := exOpen {} exShort)
    (f := fun s => ((s.matchCols, s.top, s.displayedRows), (step {} s (.mouse .click 14 1 true 1)).map (·.index))) (v := ((1, 0, 5), some 19)) (by decide +kernel)
  simp only [Prod.mk.injEq] at hv
  obtain ⟨⟨a1, a2, a3⟩, a4⟩ := hv
  obtain ⟨r, hr, hi⟩ := of_map a4
  exact ⟨s, r, hR s hs, a1, a2, a3, hr, hi⟩

/-- Matches with descriptions. -/
def exDesc : Items :=
  { exItems 40 [] with hasDesc := true, columns := fun _ short => if short then exWidths [10, 10, 10, 10] else exWidths [40] }

/-- C53 (preview): F1 scrolls the list while few rows are shown, which the code asserts not to happen
(lib/src/selectcomplete_impl.cpp:1576). -/
theorem C53_preview_violated : ∃ s, Reach exCfg s ∧ s.expanded = false ∧ s.top = 3 := by
  have hi : ItemsOk exCfg exDesc := by
    refine ⟨by decide, ?_, ?_, ?_, ?_⟩
    · intro a b; cases b <;> exact List.cons_ne_nil _ _
    · intro a b; cases a <;> cases b <;> decide
    · intro a b; cases a <;> cases b <;> decide
    · intro _ a b; cases a <;> cases b <;> decide
  have hR : ReachO exCfg (exRun exCfg (exOpen exCfg exDesc) [.next, .next, .next, .f1]) :=
    reach_keys _ rfl (reach_open hi false)
  obtain ⟨s, hs, hv⟩ := of_map (o := exRun exCfg (exOpen exCfg exDesc) [.next, .next, .next, .f1])
    (f := fun s => (s.expanded, s.top)) (v := (false, 3)) (by decide +kernel)
  simp only [Prod.mk.injEq] at hv
  exact ⟨s, hR s hs, hv⟩

end Clink.Menu
