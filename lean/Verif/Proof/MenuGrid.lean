import Verif.Spec.Menu

/-!
Rows and columns of the list.
-/

namespace Clink.Menu
open Spec

theorem cell_nonneg {G : Grid} (hf : G.Fits) {i r c : Int} (h : G.Cell i r c) : 0 ≤ i := by
  obtain ⟨h1, h2, h3, h4, h5, h6⟩ := h
  obtain ⟨f1, f2, f3, f4, f5⟩ := hf
  subst h6
  unfold Grid.item
  split
  · have := Int.mul_nonneg h1 (by omega : (0 : Int) ≤ G.cols); omega
  · have := Int.mul_nonneg h3 (by omega : (0 : Int) ≤ G.rows); omega

/-- The row and the column of a match. -/
def Grid.rowI (G : Grid) (i : Int) : Int := if G.horizontal then i / G.cols else i % G.rows
def Grid.colI (G : Grid) (i : Int) : Int := if G.horizontal then i % G.cols else i / G.rows

theorem cell_of {G : Grid} (hf : G.Fits) {i : Int} (h0 : 0 ≤ i) (h1 : i < G.count) : G.Cell i (Grid.rowI G i) (Grid.colI G i) := by
  obtain ⟨f1, f2, f3, f4, f5⟩ := hf
  unfold Grid.Cell Grid.item Grid.rowI Grid.colI
  split
  · refine ⟨Int.ediv_nonneg h0 (by omega), ?_, Int.emod_nonneg _ (by omega), Int.emod_lt_of_pos _ (by omega), h1, ?_⟩
    · exact Int.ediv_lt_of_lt_mul (by omega) (by omega)
    · have := Int.ediv_mul_add_emod i G.cols; omega
  · refine ⟨Int.emod_nonneg _ (by omega), Int.emod_lt_of_pos _ (by omega), Int.ediv_nonneg h0 (by omega), ?_, h1, ?_⟩
    · refine Int.ediv_lt_of_lt_mul (by omega) ?_
      rw [Int.mul_comm]; omega
    · have := Int.ediv_mul_add_emod i G.rows; omega

theorem cell_row {G : Grid} {i r c : Int} (h : G.Cell i r c) : Grid.rowI G i = r ∧ Grid.colI G i = c := by
  obtain ⟨h1, h2, h3, h4, h5, h6⟩ := h
  subst h6
  unfold Grid.rowI Grid.colI Grid.item
  split
  · constructor
    · rw [Int.add_comm, Int.add_mul_ediv_right _ _ (by omega), Int.ediv_eq_zero_of_lt h3 h4]; omega
    · rw [Int.add_comm, Int.add_mul_emod_self_right, Int.emod_eq_of_lt h3 h4]
  · constructor
    · rw [Int.add_comm, Int.add_mul_emod_self_right, Int.emod_eq_of_lt h1 h2]
    · rw [Int.add_comm, Int.add_mul_ediv_right _ _ (by omega), Int.ediv_eq_zero_of_lt h1 h2]; omega

theorem cell_unique {G : Grid} {i r c r' c' : Int} (h : G.Cell i r c) (h' : G.Cell i r' c') : r = r' ∧ c = c' := by
  have a := cell_row h
  have b := cell_row h'
  omega

theorem mem_row {G : Grid} (hf : G.Fits) {i r : Int} (h0 : 0 ≤ r) (h1 : r < G.rows) :
    i ∈ G.row r ↔ 0 ≤ i ∧ i < G.count ∧ Grid.rowI G i = r := by
  unfold Grid.row
  simp only [List.mem_filter, List.mem_map, List.mem_range, decide_eq_true_eq]
  constructor
  · rintro ⟨⟨c, hc, rfl⟩, hi⟩
    have hcell : G.Cell (G.item r c) r c := ⟨h0, h1, by omega, by omega, hi, rfl⟩
    exact ⟨cell_nonneg hf hcell, hi, (cell_row hcell).1⟩
  · rintro ⟨h, hi, hr⟩
    obtain ⟨a1, a2, a3, a4, a5, a6⟩ := cell_of hf h hi
    refine ⟨⟨(Grid.colI G i).toNat, by omega, ?_⟩, hi⟩
    rw [Int.toNat_of_nonneg a3, ← hr]; exact a6.symm

/-- The columns and rows of a state fit together. -/
structure GridOk (g : Cfg) (s : St) : Prop where
  count : 1 ≤ s.count
  cols : 1 ≤ s.matchCols
  rows : s.matchRows = (s.count + (s.matchCols - 1)).tdiv s.matchCols
  few : g.horizontal = true → s.matchCols ≤ s.count

theorem GridOk.fits {g : Cfg} {s : St} (h : GridOk g s) : (gridOf g s).Fits := by
  obtain ⟨h1, h2, h3, _⟩ := h
  rw [Int.tdiv_eq_ediv_of_nonneg (by omega)] at h3
  have e : (s.count + (s.matchCols - 1)) / s.matchCols = (s.count - 1) / s.matchCols + 1 := by
    rw [show s.count + (s.matchCols - 1) = (s.count - 1) + 1 * s.matchCols by omega, Int.add_mul_ediv_right _ _ (by omega)]
  have d := Int.ediv_mul_add_emod (s.count - 1) s.matchCols
  have m1 := Int.emod_nonneg (s.count - 1) (by omega : s.matchCols ≠ 0)
  have m2 := Int.emod_lt_of_pos (s.count - 1) (by omega : 0 < s.matchCols)
  have q := Int.ediv_nonneg (by omega : 0 ≤ s.count - 1) (by omega : 0 ≤ s.matchCols)
  rw [e] at h3
  unfold Grid.Fits gridOf
  dsimp only
  rw [h3]
  refine ⟨h1, h2, by omega, ?_, ?_⟩
  · rw [Int.add_mul]; omega
  · rw [Int.add_sub_cancel]; omega

/-- The row of a match. -/
theorem rowOf_eq {g : Cfg} {s : St} {i : Int} (h : 0 ≤ i) : rowOf g s i = Grid.rowI (gridOf g s) i := by
  unfold rowOf Grid.rowI gridOf
  dsimp only
  rw [Int.tdiv_eq_ediv_of_nonneg h, Int.tmod_eq_emod_of_nonneg h]

theorem rowOf_range {g : Cfg} {s : St} (h : GridOk g s) {i : Int} (h0 : 0 ≤ i) (h1 : i < s.count) :
    0 ≤ rowOf g s i ∧ rowOf g s i < s.matchRows := by
  rw [rowOf_eq h0]
  have := cell_of h.fits (i := i) h0 h1
  exact ⟨this.1, this.2.1⟩

theorem rows_le_count {g : Cfg} {s : St} (h : GridOk g s) : 1 ≤ s.matchRows ∧ s.matchRows ≤ s.count := by
  obtain ⟨f1, f2, f3, f4, f5⟩ := h.fits
  simp only [gridOf] at f1 f2 f3 f4 f5
  refine ⟨f3, ?_⟩
  have := Int.mul_le_mul_of_nonneg_left f2 (by omega : 0 ≤ s.matchRows - 1)
  omega

/-- A row below in the same column. -/
theorem rowOf_add {g : Cfg} {s : St} (h : GridOk g s) {i k : Int} (h0 : 0 ≤ i) (h1 : i < s.count)
    (hk : 0 ≤ rowOf g s i + k) (hk' : rowOf g s i + k < s.matchRows) :
    0 ≤ i + k * major g s ∧ rowOf g s (i + k * major g s) = rowOf g s i + k ∧
      Grid.colI (gridOf g s) (i + k * major g s) = Grid.colI (gridOf g s) i := by
  obtain ⟨f1, f2, f3, f4, f5⟩ := h.fits
  obtain ⟨a1, a2, a3, a4, a5, a6⟩ := cell_of h.fits (i := i) h0 h1
  rw [rowOf_eq h0] at hk hk' ⊢
  have hcell : Grid.item (gridOf g s) (Grid.rowI (gridOf g s) i + k) (Grid.colI (gridOf g s) i) = i + k * major g s := by
    conv => rhs; rw [a6]
    unfold Grid.item major gridOf
    dsimp only
    split
    · rw [Int.add_mul]; omega
    · omega
  have hn : 0 ≤ i + k * major g s := by
    rw [← hcell]; unfold Grid.item
    split
    · have := Int.mul_nonneg hk (by omega : (0 : Int) ≤ (gridOf g s).cols); omega
    · have := Int.mul_nonneg a3 (by omega : (0 : Int) ≤ (gridOf g s).rows); omega
  rw [rowOf_eq hn, ← hcell]
  have := @cell_row { gridOf g s with count := i + k * major g s + 1 }
    (Grid.item (gridOf g s) (Grid.rowI (gridOf g s) i + k) (Grid.colI (gridOf g s) i)) _ _
    ⟨hk, hk', a3, a4, by rw [hcell]; show _ < i + k * major g s + 1; omega, rfl⟩
  exact ⟨by rw [hcell]; exact hn, this.1, this.2⟩

theorem item_minor {g : Cfg} {s : St} (r c : Int) :
    (gridOf g s).item r c = r * major g s + c * minor g s := by
  unfold Grid.item major minor gridOf
  dsimp only
  split <;> simp
  omega

theorem minor_nonneg {g : Cfg} {s : St} (h : GridOk g s) : 0 ≤ minor g s := by
  have := rows_le_count h
  unfold minor; split <;> omega

/-- What is drawn for a row is what should be there. -/
theorem lineAt_eq {g : Cfg} {s : St} (h : GridOk g s) (sel r : Int) :
    Line.items (lineAt s.count (minor g s) sel s.matchCols.toNat (r * major g s)) = (gridOf g s).line sel r := by
  unfold Grid.line Grid.row
  congr 1
  have hm := minor_nonneg h
  have gen : ∀ n c : Nat, lineAt s.count (minor g s) sel n (r * major g s + c * minor g s) =
      (((List.range' c n).map fun c : Nat => (gridOf g s).item r c).filter fun i => decide (i < s.count)).map
        fun i => (i, decide (i = sel)) := by
    intro n
    induction n with
    | zero => intro c; rfl
    | succ n ih =>
      intro c
      have ih' := ih (c + 1)
      rw [show r * major g s + ((c + 1 : Nat) : Int) * minor g s = r * major g s + c * minor g s + minor g s by
        rw [Int.natCast_add, Int.add_mul]; simp; omega] at ih'
      rw [List.range'_succ, List.map_cons, lineAt]
      by_cases hc : r * major g s + c * minor g s ≥ s.count
      · rw [if_pos hc]
        symm
        rw [List.map_eq_nil_iff, List.filter_eq_nil_iff]
        intro x hx
        simp only [List.mem_cons, List.mem_map, List.mem_range'_1] at hx
        have : ∀ c' : Nat, c ≤ c' → ¬ (gridOf g s).item r c' < s.count := by
          intro c' hc'
          rw [item_minor]
          have := Int.mul_le_mul_of_nonneg_right (by omega : (c : Int) ≤ c') hm
          omega
        rcases hx with rfl | ⟨c', hc', rfl⟩
        · simpa using this c (Nat.le_refl _)
        · simpa using this c' (by omega)
      · rw [if_neg hc, ih', List.filter_cons, item_minor, if_pos (by simpa using (by omega : r * major g s + c * minor g s < s.count)),
          List.map_cons]
  have := gen s.matchCols.toNat 0
  simp only [Int.zero_mul, Int.add_zero, Int.natCast_zero] at this
  rw [List.range_eq_range']
  exact this

end Clink.Menu
