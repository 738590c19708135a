import Verif.Proof.MenuMove

/-!
What is on the screen.
-/

namespace Clink.Menu
open Spec

theorem first_lt {g : Cfg} {s : St} (h : GridOk g s) {r : Int} (h0 : 0 ≤ r) (h1 : r < s.matchRows) :
    r * major g s < s.count := (first_in_row h h0 (by omega)).2

/-- What the loop over the rows draws. -/
theorem paint_eq {g : Cfg} : ∀ (n row : Nat) (s : St), GridOk g s → 0 ≤ s.top → s.clearDisplay = false →
    s.top + row + n ≤ s.matchRows →
    paint g n row s = { s with screen := fun r =>
      if row ≤ r ∧ r < row + n ∧ (s.prevDisplayed < 0 ∨ r + s.top = rowOf g s s.index ∨
          r + s.top = rowOf g s s.prevDisplayed) then (gridOf g s).line s.index (s.top + r) else s.screen r } := by
  intro n
  induction n with
  | zero =>
    intro row s h ht hc hn
    rw [paint]
    have : (fun r => if row ≤ r ∧ r < row + 0 ∧ (s.prevDisplayed < 0 ∨ r + s.top = rowOf g s s.index ∨
        r + s.top = rowOf g s s.prevDisplayed) then (gridOf g s).line s.index (s.top + r) else s.screen r) = s.screen := by
      funext r; rw [if_neg (by omega)]
    rw [this]
  | succ n ih =>
    intro row s h ht hc hn
    have h1 := first_lt h (r := s.top + row) (by omega) (by omega)
    have hcl : clearAt row s = s := by unfold clearAt; rw [if_neg (by simp [hc])]
    rw [paint, if_neg (by omega), hcl]
    unfold paintRow
    dsimp only
    rw [lineAt_eq h]
    by_cases hp : s.prevDisplayed < 0 ∨ ↑row + s.top = rowOf g s s.index ∨ ↑row + s.top = rowOf g s s.prevDisplayed
    · rw [if_pos hp]
      rw [ih (row + 1) { s with screen := upd s.screen row ((gridOf g s).line s.index (s.top + row)) }
        ⟨h.count, h.cols, h.rows, h.few⟩ ht hc (by dsimp only; omega)]
      congr 1
      funext r
      show (if row + 1 ≤ r ∧ r < row + 1 + n ∧ (s.prevDisplayed < 0 ∨ r + s.top = rowOf g s s.index ∨
        r + s.top = rowOf g s s.prevDisplayed) then (gridOf g s).line s.index (s.top + r)
        else upd s.screen row ((gridOf g s).line s.index (s.top + row)) r) = _
      by_cases e : r = row
      · subst e
        rw [if_neg (by omega), if_pos ⟨by omega, by omega, hp⟩]
        unfold upd; rw [if_pos rfl]
      · unfold upd
        rw [if_neg (c := r = row) e]
        by_cases hq : (s.prevDisplayed < 0 ∨ r + s.top = rowOf g s s.index ∨ r + s.top = rowOf g s s.prevDisplayed)
        · by_cases hr : row + 1 ≤ r ∧ r < row + 1 + n
          · rw [if_pos ⟨hr.1, hr.2, hq⟩, if_pos ⟨by omega, by omega, hq⟩]
          · rw [if_neg (fun x => hr ⟨x.1, x.2.1⟩), if_neg (by omega)]
        · rw [if_neg (fun x => hq x.2.2), if_neg (fun x => hq x.2.2)]
    · rw [if_neg hp, ih (row + 1) s h ht hc (by omega)]
      congr 1
      funext r
      by_cases e : r = row
      · subst e
        rw [if_neg (by omega), if_neg (fun x => hp x.2.2)]
      · by_cases hq : (s.prevDisplayed < 0 ∨ r + s.top = rowOf g s s.index ∨ r + s.top = rowOf g s s.prevDisplayed)
        · by_cases hr : row + 1 ≤ r ∧ r < row + 1 + n
          · rw [if_pos ⟨hr.1, hr.2, hq⟩, if_pos ⟨by omega, by omega, hq⟩]
          · rw [if_neg (fun x => hr ⟨x.1, x.2.1⟩), if_neg (by omega)]
        · rw [if_neg (fun x => hq x.2.2), if_neg (fun x => hq x.2.2)]

theorem clear_core (s : St) : (clearAt 0 s).top = s.top ∧ (clearAt 0 s).clearDisplay = false ∧
    (clearAt 0 s).expanded = s.expanded ∧ (clearAt 0 s).displayedRows = s.displayedRows := by
  unfold clearAt
  split
  · exact ⟨rfl, rfl, rfl, rfl⟩
  · rename_i h; exact ⟨rfl, by simpa using h, rfl, rfl⟩

theorem paint_clear {g : Cfg} {s : St} {n : Nat} : (h : GridOk g s) → 0 ≤ s.top → 1 ≤ n → s.top + n ≤ s.matchRows →
    paint g n 0 s = paint g n 0 (clearAt 0 s) := by
  intro h ht h1 hn
  cases n with
  | zero => omega
  | succ n =>
    have h2 := first_lt h (r := s.top + (0 : Nat)) (by omega) (by omega)
    have hc := core_clearAt 0 s
    have he : clearAt 0 (clearAt 0 s) = clearAt 0 s := by
      generalize hs : clearAt 0 s = s'
      have := (clear_core s).2.1
      rw [hs] at this
      unfold clearAt; rw [if_neg (by simp [this])]
    rw [paint, paint, hc.major, hc.count, (clear_core s).1, he, if_neg (by omega), if_neg (by omega)]

theorem visited_eq {g : Cfg} {s : St} (h : GridOk g s) (ht : 0 ≤ s.top) : ∀ (n row : Nat), s.top + row + n ≤ s.matchRows →
    visited g s n row = n := by
  intro n
  induction n with
  | zero => intro row _; rfl
  | succ n ih =>
    intro row hn
    have := first_lt h (r := s.top + row) (by omega) (by omega)
    rw [visited, if_neg (by omega), ih (row + 1) (by omega)]

theorem shown_eq {g : Cfg} {s : St} (h : GridOk g s) (ht : 0 ≤ s.top) : ∀ (n row : Nat), s.top + row + n ≤ s.matchRows →
    shown g s n row = (gridOf g s).on (s.top + row) n := by
  intro n
  induction n with
  | zero => intro row _; rfl
  | succ n ih =>
    intro row hn
    have := first_lt h (r := s.top + row) (by omega) (by omega)
    rw [shown]
    rw [if_neg (by omega), ih (row + 1) (by omega), Grid.on]
    have e := lineAt_eq h s.index (s.top + row)
    unfold Grid.line at e
    injection e with e
    rw [e, List.length_map, show s.top + ((row + 1 : Nat) : Int) = s.top + row + 1 by omega]

/-- A row looks the same whichever match of another row is selected. -/
theorem line_other {g : Cfg} {s : St} (h : GridOk g s) {r i j : Int} (h0 : 0 ≤ r) (h1 : r < s.matchRows)
    (hi : 0 ≤ i) (hj : 0 ≤ j) (hir : r ≠ rowOf g s i) (hjr : r ≠ rowOf g s j) :
    (gridOf g s).line i r = (gridOf g s).line j r := by
  unfold Grid.line
  congr 1
  refine List.map_congr_left fun k hk => ?_
  obtain ⟨k0, k1, k2⟩ := (mem_row h.fits h0 h1).1 hk
  have : k ≠ i := fun e => hir (by rw [rowOf_eq hi, ← e, k2])
  have : k ≠ j := fun e => hjr (by rw [rowOf_eq hj, ← e, k2])
  simp [*]

/-- What may be on the screen before `n` rows are drawn. -/
def Stage (g : Cfg) (s : St) (n : Nat) : Prop :=
  s.clearDisplay = true ∨
  (s.prevDisplayed < 0 ∧ s.commentDisplayed = false ∧ ∀ r, s.screen r = .blank) ∨
  ∃ sel top n0, Picture (gridOf g s) sel top n0 s.screen ∧ 0 ≤ sel ∧
    (s.prevDisplayed < 0 ∨ s.prevDisplayed = sel ∧ s.top = top ∧ n0 = n) ∧
    (s.commentDisplayed = true → s.top = top ∧ n0 = n) ∧ n0 ≤ n

theorem stage_clear {g : Cfg} {s : St} {n : Nat} (h : Stage g s n) : Stage g (clearAt 0 s) n := by
  by_cases hc : s.clearDisplay = true
  · right; left
    unfold clearAt
    rw [if_pos ⟨hc, rfl⟩]
    exact ⟨(by decide : (-1 : Int) < 0), rfl, fun _ => rfl⟩
  · have : clearAt 0 s = s := by unfold clearAt; rw [if_neg (by simp [hc])]
    rw [this]; exact h

/-- What a comment says. -/
theorem comment_true {g : Cfg} {s : St} (h : GridOk g s) (ht : 0 ≤ s.top) (hn : 1 ≤ s.displayedRows)
    (hm : s.top + s.displayedRows ≤ s.matchRows)
    (he : s.expanded = true → s.displayedRows < s.matchRows → s.displayedRows = s.visibleRows)
    (hf : s.expanded = false → s.displayedRows < s.matchRows → showMore g s = true) (hr : s.displayedRows < s.matchRows) :
    (gridOf g s).Comment s.top s.displayedRows.toNat (if !s.expanded then
      Line.more (s.count - (if showMore g s then shown g s s.displayedRows.toNat 0 else 0))
      else Line.rows (s.top + 1) (s.top + s.visibleRows) s.matchRows) := by
  cases hx : s.expanded with
  | true =>
    rw [if_neg (by simp)]
    left
    have := he hx hr
    rw [show (s.displayedRows.toNat : Int) = s.visibleRows by omega]
    rfl
  | false =>
    rw [if_pos (by simp), if_pos (hf hx hr), shown_eq h ht _ _ (by omega)]
    right
    simp only [Int.natCast_zero, Int.add_zero]
    rfl

theorem stage_draw {g : Cfg} {s : St} (h : GridOk g s) (ht : 0 ≤ s.top) (h0 : 0 ≤ s.index) (hn : 1 ≤ s.displayedRows)
    (hm : s.top + s.displayedRows ≤ s.matchRows)
    (hne : showMore g s = true ∨ s.visibleRows < s.matchRows ↔ s.displayedRows < s.matchRows)
    (he : s.expanded = true → s.displayedRows < s.matchRows → s.displayedRows = s.visibleRows)
    (hf : s.expanded = false → s.displayedRows < s.matchRows → showMore g s = true)
    (hs : Stage g s s.displayedRows.toNat) :
    Picture (gridOf g s) s.index s.top s.displayedRows.toNat (comment g (paint g s.displayedRows.toNat 0 s)).screen ∧
      (comment g (paint g s.displayedRows.toNat 0 s)).clearDisplay = false := by
  rw [paint_clear h ht (by omega) (by omega)]
  have hs := stage_clear hs
  have hcc := core_clearAt 0 s
  have hc := clear_core s
  generalize clearAt 0 s = c at hs hcc hc
  have h' := hcc.gridOk h
  obtain ⟨c1, c2, c3, c4⟩ := hc
  rw [paint_eq _ _ c h' (by omega) c2 (by rw [c1, hcc.rows]; omega)]
  generalize hF : (fun r => if 0 ≤ r ∧ r < 0 + s.displayedRows.toNat ∧ (c.prevDisplayed < 0 ∨ (r : Int) + c.top = rowOf g c c.index ∨
          r + c.top = rowOf g c c.prevDisplayed) then (gridOf g c).line c.index (c.top + r) else c.screen r) = F
  -- the rows
  have hgr : (gridOf g c).rows = s.matchRows := hcc.rows
  have hrow : ∀ r : Nat, r < s.displayedRows.toNat → F r = (gridOf g c).line c.index (c.top + r) := by
    intro r hr
    subst hF
    dsimp only
    by_cases hq : (c.prevDisplayed < 0 ∨ (r : Int) + c.top = rowOf g c c.index ∨ r + c.top = rowOf g c c.prevDisplayed)
    · rw [if_pos ⟨by omega, by omega, hq⟩]
    · rw [if_neg (fun x => hq x.2.2)]
      rcases hs with hx | ⟨hx, _⟩ | ⟨sel, top, n0, p, q, u, v, w⟩
      · rw [c2] at hx; cases hx
      · exact absurd (Or.inl hx) hq
      · rcases u with u | ⟨u1, u2, u3⟩
        · exact absurd (Or.inl u) hq
        · rw [p.1 r (by omega), ← u2]
          refine line_other h' (by omega) (by rw [c1, hcc.rows]; omega) q (by rw [hcc.index]; exact h0) ?_ ?_
          · intro e; exact hq (Or.inr (Or.inr (by rw [u1]; omega)))
          · intro e; exact hq (Or.inr (Or.inl (by omega)))
  have hrest : ∀ r : Nat, s.displayedRows.toNat ≤ r → F r = c.screen r := by
    intro r hr; subst hF; dsimp only; rw [if_neg (by omega)]
  have hbl : ∀ r : Nat, s.displayedRows.toNat < r → c.screen r = .blank := by
    intro r hr
    rcases hs with hx | ⟨_, _, hx⟩ | ⟨sel, top, n0, p, q, u, v, w⟩
    · rw [c2] at hx; cases hx
    · exact hx r
    · exact p.2.2 r (by omega)
  have hG : gridOf g c = gridOf g s := hcc.grid
  have key : ∀ F' : Nat → Line, (∀ r : Nat, r ≠ s.displayedRows.toNat → F' r = F r) →
      (if (s.displayedRows.toNat : Int) < s.matchRows then (gridOf g s).Comment s.top s.displayedRows.toNat (F' s.displayedRows.toNat)
        else F' s.displayedRows.toNat = .blank) → Picture (gridOf g s) s.index s.top s.displayedRows.toNat F' := by
    intro F' h1 h2
    refine ⟨fun r hr => ?_, h2, fun r hr => ?_⟩
    · rw [h1 r (by omega), hrow r hr, hG, c1, hcc.index]
    · rw [h1 r (by omega), hrest r (by omega), hbl r hr]
  have hlast : (c.commentDisplayed = true ∨ ¬ s.displayedRows < s.matchRows) →
      (if (s.displayedRows.toNat : Int) < s.matchRows then (gridOf g s).Comment s.top s.displayedRows.toNat (F s.displayedRows.toNat)
        else F s.displayedRows.toNat = .blank) := by
    intro hx
    rw [hrest _ (Nat.le_refl _)]
    rcases hs with hy | ⟨_, hz, hy⟩ | ⟨sel, top, n0, p, q, u, v, w⟩
    · rw [c2] at hy; cases hy
    · rcases hx with hx | hx
      · rw [hz] at hx; cases hx
      · rw [if_neg (by omega)]; exact hy _
    · rcases hx with hx | hx
      · obtain ⟨v1, v2⟩ := v hx
        have := p.2.1
        rw [hgr, v2, ← v1, c1, hG] at this
        exact this
      · rw [if_neg (by omega)]
        by_cases e : n0 = s.displayedRows.toNat
        · have := p.2.1
          rw [hgr, e, if_neg (by omega)] at this
          exact this
        · exact p.2.2 _ (by omega)
  generalize hp : ({ c with screen := F } : St) = p
  have pc : SameCore s p := hcc.trans (by subst hp; constructor <;> rfl)
  have p1 : p.top = s.top := by subst hp; exact c1
  have p2 : p.expanded = s.expanded := by subst hp; exact c3
  have p3 : p.displayedRows = s.displayedRows := by subst hp; exact c4
  have p4 : p.screen = F := by subst hp; rfl
  have p5 : p.commentDisplayed = c.commentDisplayed := by subst hp; rfl
  have p6 : p.clearDisplay = false := by subst hp; exact c2
  have p7 : showMore g p = showMore g s := by unfold showMore; rw [p2, pc.rows]
  have hv := visited_eq (pc.gridOk h) (by omega) s.displayedRows.toNat 0 (by rw [p1, pc.rows]; omega)
  have hct := comment_true (pc.gridOk h) (by omega) (by omega) (by rw [p1, p3, pc.rows]; omega)
    (by rw [p2, p3, pc.rows, pc.visible]; exact he) (by rw [p2, p3, pc.rows, p7]; exact hf)
  rw [pc.rows, p3, p1, pc.grid] at hct
  unfold comment
  dsimp only
  by_cases hneed : s.displayedRows < s.matchRows
  · rw [if_pos (by rw [p7, pc.visible, pc.rows]; exact hne.2 hneed)]
    cases hcd : c.commentDisplayed with
    | true =>
      rw [if_pos (by rw [p5, hcd]), p4]
      exact ⟨key F (fun _ _ => rfl) (hlast (Or.inl hcd)), p6⟩
    | false =>
      rw [if_neg (by rw [p5, hcd]; simp), p3, hv]
      refine ⟨key _ (fun r hr => ?_) ?_, p6⟩
      · show upd p.screen _ _ r = F r
        unfold upd; rw [if_neg hr, p4]
      · rw [if_pos (by omega)]
        show (gridOf g s).Comment s.top s.displayedRows.toNat (upd p.screen _ _ s.displayedRows.toNat)
        unfold upd; rw [if_pos rfl]
        have := hct hneed
        rw [← pc.rows, ← p1] at this
        rw [← p1]
        exact this
  · rw [if_neg (by rw [p7, pc.visible, pc.rows]; exact fun x => hneed (hne.1 x)), p4]
    exact ⟨key F (fun _ _ => rfl) (hlast (Or.inr hneed)), p6⟩

end Clink.Menu
