import Verif.Proof.MenuRun

/-!
Where the keys lead.
-/

namespace Clink.Menu
open Spec

theorem insert_line (g : Cfg) (s : St) : (insertMatch g s).line = s.index ∧ (insertMatch g s).latched = s.latched ∧
    (insertMatch g s).prevInput = s.prevInput := by
  unfold insertMatch
  dsimp only
  split
  · have := updateLayout_place g { s with line := s.index, visBotlin := s.it.botlin s.index, screen := fun _ => .blank, prevDisplayed := -1, commentDisplayed := false }
    exact ⟨this.line, this.latched, this.prevInput⟩
  · exact ⟨rfl, rfl, rfl⟩

theorem insert_it (g : Cfg) (s : St) : (insertMatch g s).it = s.it := by
  unfold insertMatch
  dsimp only
  split
  · rw [(updateLayout_place g _).it]
  · rfl

theorem nav_index (g : Cfg) (s : St) : (navigated g s).index = s.index ∧ (navigated g s).count = s.count ∧
    (navigated g s).line = s.index ∧ (navigated g s).latched = s.latched ∧ (navigated g s).prevInput = s.prevInput := by
  unfold navigated
  have h := core_updateDisplay g (insertMatch g s)
  have k := insert_index g s
  have l := insert_line g s
  exact ⟨by rw [h.index, k.1], by rw [h.count, k.2], by rw [h.line, l.1], by rw [h.latched, l.2.1], by rw [h.prevInput, l.2.2]⟩

/-- The order along lines of the length `M`. -/
def Lex (M i j : Int) : Prop := i % M < j % M ∨ i % M = j % M ∧ i / M < j / M

theorem divmod {M i : Int} (hM : 1 ≤ M) (h : 0 ≤ i) : i = i / M * M + i % M ∧ 0 ≤ i % M ∧ i % M < M ∧ 0 ≤ i / M :=
  ⟨(Int.ediv_mul_add_emod i M).symm, Int.emod_nonneg _ (by omega), Int.emod_lt_of_pos _ (by omega), Int.ediv_nonneg h (by omega)⟩

theorem add_line {M i : Int} (hM : 1 ≤ M) : (i + M) % M = i % M ∧ (i + M) / M = i / M + 1 := by
  refine ⟨Int.add_emod_right i M, ?_⟩
  rw [show i + M = i + 1 * M by omega, Int.add_mul_ediv_right _ _ (by omega)]

/-- A match further along the same line. -/
theorem further {M i k : Int} (hM : 1 ≤ M) (hi : 0 ≤ i) (hk : 0 ≤ k) (he : i % M = k % M) (hl : i / M < k / M) : i + M ≤ k := by
  have a := divmod hM hi
  have b := divmod hM hk
  have := Int.mul_le_mul_of_nonneg_right (by omega : i / M + 1 ≤ k / M) (by omega : 0 ≤ M)
  rw [Int.add_mul] at this
  omega

theorem higher_next {wrap : Bool} {i M count : Int} (hM : 1 ≤ M) (hc : M ≤ count) (h0 : 0 ≤ i) (h1 : i < count) :
    (∃ j, higher wrap i M count false = some (j, false) ∧ 0 ≤ j ∧ j < count ∧ Lex M i j ∧
      ∀ k, 0 ≤ k → k < count → Lex M i k → ¬ Lex M k j) ∨
    ((∀ k, 0 ≤ k → k < count → ¬ Lex M i k) ∧
      higher wrap i M count false = some (if wrap then (0, false) else (count - 1, true))) := by
  have di := divmod hM h0
  have dm : (i + 1) % M = if i % M = M - 1 then 0 else i % M + 1 := by
    have e : i + 1 = (i % M + 1) + i / M * M := by omega
    split
    · rename_i hh
      rw [e, hh, Int.add_mul_emod_self_right, show M - 1 + 1 = M by omega, Int.emod_self]
    · rw [e, Int.add_mul_emod_self_right]
      exact Int.emod_eq_of_lt (by omega) (by omega)
  unfold higher
  rw [if_neg (by simp), Int.tmod_eq_emod_of_nonneg (by omega), Int.tmod_eq_emod_of_nonneg (by omega)]
  by_cases hx : i + M ≥ count
  · by_cases hl : i % M = M - 1
    · right
      rw [if_pos hl] at dm
      refine ⟨fun k k0 k1 hk => ?_, ?_⟩
      · have dk := divmod hM k0
        rcases hk with hk | ⟨e, hk⟩
        · omega
        · have := further hM h0 k0 e hk; omega
      · rw [if_pos ⟨hx, dm⟩]
        cases wrap <;> rfl
    · left
      rw [if_neg hl] at dm
      have e : (i + M + 1) % M = i % M + 1 := by
        rw [show i + M + 1 = i + 1 + M by omega, Int.add_emod_right, dm]
      have ej : (i % M + 1) % M = i % M + 1 := Int.emod_eq_of_lt (by omega) (by omega)
      refine ⟨i % M + 1, ?_, by omega, by omega, Or.inl (by omega), fun k k0 k1 hk hkj => ?_⟩
      · rw [if_neg (by omega), if_pos hx, e]
      · have dk := divmod hM k0
        rcases hk with hk | ⟨ek, hk⟩
        · rcases hkj with hkj | ⟨e', hkj⟩
          · omega
          · have e0 : (i % M + 1) / M = 0 := Int.ediv_eq_zero_of_lt (by omega) (by omega)
            omega
        · have := further hM h0 k0 ek hk; omega
  · left
    have ha := add_line (i := i) hM
    refine ⟨i + M, ?_, by omega, by omega, Or.inr ⟨by omega, by omega⟩, fun k k0 k1 hk hkj => ?_⟩
    · rw [if_neg (by omega), if_neg (by omega)]
    · unfold Lex at hk hkj; omega

/-- The last match of a line. -/
theorem shrink_line {count M i : Int} (hM : 1 ≤ M) (hc : M ≤ count) (hi : 0 ≤ i) (hb : count ≤ i + M) :
    0 ≤ shrink count M i ∧ shrink count M i < count ∧ shrink count M i % M = i % M ∧ count ≤ shrink count M i + M := by
  obtain ⟨a, b, ⟨k, hk, e⟩, d⟩ := shrink_spec hM hc hi
  refine ⟨a, b, ?_, ?_⟩
  · rw [e, show i - k * M = i + (-k) * M by rw [Int.neg_mul]; omega, Int.add_mul_emod_self_right]
  · rcases d with d | d
    · omega
    · exact d

theorem lower_next {wrap : Bool} {i M N count : Int} (hM : 1 ≤ M) (hc : M ≤ count) (hN : count ≤ M * N) (h0 : 0 ≤ i) (h1 : i < count) :
    (0 ≤ lower wrap i M N count ∧ lower wrap i M N count < count) ∧
    ((Lex M (lower wrap i M N count) i ∧
      ∀ k, 0 ≤ k → k < count → Lex M (lower wrap i M N count) k → ¬ Lex M k i) ∨
    (i = 0 ∧ if wrap then ∀ k, 0 ≤ k → k < count → ¬ Lex M (lower wrap i M N count) k else lower wrap i M N count = 0)) := by
  refine ⟨lower_range hM hc hN h0 h1, ?_⟩
  have di := divmod hM h0
  have hN1 : 1 ≤ N := by
    by_cases h : 1 ≤ N
    · exact h
    · have := Int.mul_le_mul_of_nonneg_left (by omega : N ≤ 0) (by omega : 0 ≤ M); omega
  have hMN : M ≤ M * N := by have := Int.mul_le_mul_of_nonneg_left hN1 (by omega : 0 ≤ M); omega
  unfold lower
  by_cases hi : i = 0
  · right
    rw [if_pos hi]
    refine ⟨hi, ?_⟩
    cases wrap with
    | false => simp [hi]
    | true =>
      rw [if_pos rfl, if_pos rfl]
      obtain ⟨a, b, c, d⟩ := shrink_line hM hc (i := i - 1 + M * N) (by omega) (by omega)
      have e : (i - 1 + M * N) % M = M - 1 := by
        rw [show i - 1 + M * N = (M - 1) + (N - 1) * M by rw [Int.sub_mul, Int.mul_comm]; omega, Int.add_mul_emod_self_right]
        exact Int.emod_eq_of_lt (by omega) (by omega)
      intro k k0 k1 hk
      have dk := divmod hM k0
      rcases hk with hk | ⟨ek, hk⟩
      · omega
      · have := further hM a k0 ek hk; omega
  · left
    rw [if_neg hi]
    by_cases hx : i - M < 0
    · rw [if_pos hx]
      obtain ⟨a, b, c, d⟩ := shrink_line hM hc (i := i - M - 1 + M * N) (by omega) (by omega)
      have e : (i - M - 1 + M * N) % M = i - 1 := by
        rw [show i - M - 1 + M * N = (i - 1) + (N - 1) * M by rw [Int.sub_mul, Int.mul_comm]; omega, Int.add_mul_emod_self_right]
        exact Int.emod_eq_of_lt (by omega) (by omega)
      have ei : i % M = i := Int.emod_eq_of_lt (by omega) (by omega)
      have eq : i / M = 0 := Int.ediv_eq_zero_of_lt (by omega) (by omega)
      refine ⟨Or.inl (by omega), fun k k0 k1 hk hki => ?_⟩
      have dk := divmod hM k0
      rcases hk with hk | ⟨ek, hk⟩
      · unfold Lex at hki; omega
      · have := further hM a k0 ek hk; omega
    · rw [if_neg hx]
      have ha := add_line (i := i - M) hM
      rw [show i - M + M = i by omega] at ha
      refine ⟨Or.inr ⟨by omega, by omega⟩, fun k k0 k1 hk hki => ?_⟩
      unfold Lex at hk hki; omega

/-- The order of the matches is that along the lines. -/
theorem order_lines {M i j : Int} (hM : 1 ≤ M) (h0 : 0 ≤ i) (h1 : 0 ≤ j) : Across (i / M) (i % M) (j / M) (j % M) ↔ i < j := by
  have a := divmod hM h0
  have b := divmod hM h1
  unfold Across
  constructor
  · rintro (h | ⟨e, h⟩)
    · have := Int.mul_le_mul_of_nonneg_right (by omega : i / M + 1 ≤ j / M) (by omega : 0 ≤ M)
      rw [Int.add_mul] at this
      omega
    · rw [e] at a; omega
  · intro h
    by_cases hx : i / M < j / M
    · exact Or.inl hx
    · right
      by_cases hy : i / M = j / M
      · rw [hy] at a; omega
      · have := Int.mul_le_mul_of_nonneg_right (by omega : j / M + 1 ≤ i / M) (by omega : 0 ≤ M)
        rw [Int.add_mul] at this
        omega

/-- Orders of two matches. -/
def acr (G : Grid) (i j : Int) : Prop := Across (Grid.rowI G i) (Grid.colI G i) (Grid.rowI G j) (Grid.colI G j)
def dwn (G : Grid) (i j : Int) : Prop := Across (Grid.colI G i) (Grid.rowI G i) (Grid.colI G j) (Grid.rowI G j)

theorem nextAcross_of {G : Grid} (hf : G.Fits) {i j : Int} (hi : 0 ≤ i ∧ i < G.count) (hj : 0 ≤ j ∧ j < G.count) (h : acr G i j)
    (hb : ∀ k, 0 ≤ k → k < G.count → acr G i k → ¬ acr G k j) : G.NextAcross i j := by
  refine ⟨_, _, _, _, cell_of hf hi.1 hi.2, cell_of hf hj.1 hj.2, h, fun k r c hk h1 h2 => ?_⟩
  obtain ⟨rfl, rfl⟩ := cell_row hk
  exact hb k (cell_nonneg hf hk) hk.2.2.2.2.1 h1 h2

theorem nextDown_of {G : Grid} (hf : G.Fits) {i j : Int} (hi : 0 ≤ i ∧ i < G.count) (hj : 0 ≤ j ∧ j < G.count) (h : dwn G i j)
    (hb : ∀ k, 0 ≤ k → k < G.count → dwn G i k → ¬ dwn G k j) : G.NextDown i j := by
  refine ⟨_, _, _, _, cell_of hf hi.1 hi.2, cell_of hf hj.1 hj.2, h, fun k r c hk h1 h2 => ?_⟩
  obtain ⟨rfl, rfl⟩ := cell_row hk
  exact hb k (cell_nonneg hf hk) hk.2.2.2.2.1 h1 h2

theorem lastAcross_of {G : Grid} (hf : G.Fits) {i : Int} (hi : 0 ≤ i ∧ i < G.count)
    (hb : ∀ k, 0 ≤ k → k < G.count → ¬ acr G i k) : G.LastAcross i := by
  refine ⟨_, _, cell_of hf hi.1 hi.2, fun k r c hk h1 => ?_⟩
  obtain ⟨rfl, rfl⟩ := cell_row hk
  exact hb k (cell_nonneg hf hk) hk.2.2.2.2.1 h1

theorem lastDown_of {G : Grid} (hf : G.Fits) {i : Int} (hi : 0 ≤ i ∧ i < G.count)
    (hb : ∀ k, 0 ≤ k → k < G.count → ¬ dwn G i k) : G.LastDown i := by
  refine ⟨_, _, cell_of hf hi.1 hi.2, fun k r c hk h1 => ?_⟩
  obtain ⟨rfl, rfl⟩ := cell_row hk
  exact hb k (cell_nonneg hf hk) hk.2.2.2.2.1 h1

/-- The order in which the matches are numbered. -/
theorem order_h {G : Grid} (hf : G.Fits) (hh : G.horizontal = true) {i j : Int} (h0 : 0 ≤ i) (h1 : 0 ≤ j) : acr G i j ↔ i < j := by
  unfold acr Grid.rowI Grid.colI
  simp only [hh, if_true]
  exact order_lines hf.2.1 h0 h1

theorem order_v {G : Grid} (hf : G.Fits) (hh : G.horizontal = false) {i j : Int} (h0 : 0 ≤ i) (h1 : 0 ≤ j) : dwn G i j ↔ i < j := by
  unfold dwn Grid.rowI Grid.colI
  simp only [hh, Bool.false_eq_true, if_false]
  exact order_lines hf.2.2.1 h0 h1

theorem lex_v {G : Grid} (hh : G.horizontal = false) {i j : Int} : acr G i j ↔ Lex G.rows i j := by
  unfold acr Grid.rowI Grid.colI Lex Across
  simp only [hh, Bool.false_eq_true, if_false]

theorem lex_h {G : Grid} (hh : G.horizontal = true) {i j : Int} : dwn G i j ↔ Lex G.cols i j := by
  unfold dwn Grid.rowI Grid.colI Lex Across
  simp only [hh, if_true]

/-- The matches are numbered along the rows of a horizontal list and along the columns of a vertical one. -/
theorem next_number {G : Grid} (hf : G.Fits) {i : Int} (h0 : 0 ≤ i) (h1 : i + 1 < G.count) :
    if G.horizontal then G.NextAcross i (i + 1) else G.NextDown i (i + 1) := by
  cases hh : G.horizontal with
  | true =>
    rw [if_pos rfl]
    refine nextAcross_of hf ⟨h0, by omega⟩ ⟨by omega, h1⟩ ((order_h hf hh h0 (by omega)).2 (by omega)) fun k k0 k1 h2 h3 => ?_
    rw [order_h hf hh h0 k0] at h2
    rw [order_h hf hh k0 (by omega)] at h3
    omega
  | false =>
    rw [if_neg (by simp)]
    refine nextDown_of hf ⟨h0, by omega⟩ ⟨by omega, h1⟩ ((order_v hf hh h0 (by omega)).2 (by omega)) fun k k0 k1 h2 h3 => ?_
    rw [order_v hf hh h0 k0] at h2
    rw [order_v hf hh k0 (by omega)] at h3
    omega

theorem last_number {G : Grid} (hf : G.Fits) : if G.horizontal then G.LastAcross (G.count - 1) else G.LastDown (G.count - 1) := by
  have hc := hf.1
  cases hh : G.horizontal with
  | true =>
    rw [if_pos rfl]
    refine lastAcross_of hf ⟨by omega, by omega⟩ fun k k0 k1 h2 => ?_
    rw [order_h hf hh (by omega) k0] at h2; omega
  | false =>
    rw [if_neg (by simp)]
    refine lastDown_of hf ⟨by omega, by omega⟩ fun k k0 k1 h2 => ?_
    rw [order_v hf hh (by omega) k0] at h2; omega

/-- One step in the order of the numbers. -/
theorem next_index {g : Cfg} {s : St} : (next g s).index = if s.index + 1 ≥ s.count then (if g.wrap then 0 else s.count - 1) else s.index + 1 := by
  unfold next; dsimp only; rw [(nav_index g _).1]

theorem prev_index {g : Cfg} {s : St} : (prev g s).index = if s.index - 1 < 0 then (if g.wrap then s.count - 1 else 0) else s.index - 1 := by
  unfold prev; dsimp only; rw [(nav_index g _).1]

theorem arrowNext_index {g : Cfg} {s : St} : (arrowNext g s).index = (next g s).index := by
  unfold arrowNext
  rw [next_index, next_index]
  split <;> rfl

/-- Along the rows, forward. -/
theorem right_spec {g : Cfg} {s : St} (h : Inv g s) (hl : s.latched = false) :
    (gridOf g s).NextAcross s.index (right g s).index ∨
      (gridOf g s).LastAcross s.index ∧ (right g s).index = if g.wrap then 0 else s.count - 1 := by
  have hf := h.grid.fits
  have h0 := h.index0
  have h1 := h.index1
  have hz := h.sizes
  unfold right
  split
  · rename_i hh
    rw [arrowNext_index, next_index]
    by_cases hx : s.index + 1 ≥ s.count
    · right
      rw [if_pos hx]
      have := last_number hf
      rw [if_pos (show (gridOf g s).horizontal = true from hh)] at this
      refine ⟨?_, rfl⟩
      rw [show s.index = (gridOf g s).count - 1 by show s.index = s.count - 1; omega]; exact this
    · left
      rw [if_neg hx]
      have := next_number hf (i := s.index) h0 (by show s.index + 1 < s.count; omega)
      rw [if_pos (show (gridOf g s).horizontal = true from hh)] at this
      exact this
  · rename_i hh
    have hh : (gridOf g s).horizontal = false := by show g.horizontal = false; simpa using hh
    unfold moveHigher
    rw [hl]
    rcases higher_next (wrap := g.wrap) hz.2.2.1 hz.2.2.2 h0 h1 with ⟨j, e, j0, j1, hlex, hbet⟩ | ⟨hlast, e⟩
    · left
      rw [e]
      dsimp only
      rw [(nav_index g _).1]
      exact nextAcross_of hf ⟨h0, h1⟩ ⟨j0, j1⟩ ((lex_v hh).2 hlex) fun k k0 k1 h2 h3 => hbet k k0 k1 ((lex_v hh).1 h2) ((lex_v hh).1 h3)
    · right
      rw [e]
      refine ⟨lastAcross_of hf ⟨h0, h1⟩ fun k k0 k1 h2 => hlast k k0 k1 ((lex_v hh).1 h2), ?_⟩
      cases hw : g.wrap <;> simp only [Bool.false_eq_true, if_false, if_true] <;> rw [(nav_index g _).1]

/-- Along the columns, forward. -/
theorem down_spec {g : Cfg} {s : St} (h : Inv g s) (hl : s.latched = false) :
    (gridOf g s).NextDown s.index (down g s).index ∨
      (gridOf g s).LastDown s.index ∧ (down g s).index = if g.wrap then 0 else s.count - 1 := by
  have hf := h.grid.fits
  have h0 := h.index0
  have h1 := h.index1
  have hz := h.sizes
  unfold down
  split
  · rename_i hh'
    have hh : (gridOf g s).horizontal = true := hh'
    unfold moveHigher
    rw [hl]
    rcases higher_next (wrap := g.wrap) h.grid.cols (h.grid.few hh') h0 h1 with ⟨j, e, j0, j1, hlex, hbet⟩ | ⟨hlast, e⟩
    · left
      rw [e]
      dsimp only
      rw [(nav_index g _).1]
      exact nextDown_of hf ⟨h0, h1⟩ ⟨j0, j1⟩ ((lex_h hh).2 hlex) fun k k0 k1 h2 h3 => hbet k k0 k1 ((lex_h hh).1 h2) ((lex_h hh).1 h3)
    · right
      rw [e]
      refine ⟨lastDown_of hf ⟨h0, h1⟩ fun k k0 k1 h2 => hlast k k0 k1 ((lex_h hh).1 h2), ?_⟩
      cases hw : g.wrap <;> simp only [Bool.false_eq_true, if_false, if_true] <;> rw [(nav_index g _).1]
  · rename_i hh
    have hh : (gridOf g s).horizontal = false := by show g.horizontal = false; simpa using hh
    rw [arrowNext_index, next_index]
    by_cases hx : s.index + 1 ≥ s.count
    · right
      rw [if_pos hx]
      have := last_number hf
      rw [if_neg (by rw [hh]; simp)] at this
      refine ⟨?_, rfl⟩
      rw [show s.index = (gridOf g s).count - 1 by show s.index = s.count - 1; omega]; exact this
    · left
      rw [if_neg hx]
      have := next_number hf (i := s.index) h0 (by show s.index + 1 < s.count; omega)
      rw [if_neg (by rw [hh]; simp)] at this
      exact this

theorem left_spec {g : Cfg} {s : St} (h : Inv g s) :
    (gridOf g s).NextAcross (left g s).index s.index ∨
      s.index = 0 ∧ if g.wrap then (gridOf g s).LastAcross (left g s).index else (left g s).index = 0 := by
  have hf := h.grid.fits
  have h0 := h.index0
  have h1 := h.index1
  have hz := h.sizes
  have hc := h.grid.count
  unfold left
  split
  · rename_i hh
    rw [prev_index]
    by_cases hx : s.index - 1 < 0
    · right
      rw [if_pos hx]
      refine ⟨by omega, ?_⟩
      have := last_number hf
      rw [if_pos (show (gridOf g s).horizontal = true from hh)] at this
      cases hw : g.wrap
      · rfl
      · exact this
    · left
      rw [if_neg hx]
      have := next_number hf (i := s.index - 1) (by omega) (by show s.index - 1 + 1 < s.count; omega)
      rw [if_pos (show (gridOf g s).horizontal = true from hh), show s.index - 1 + 1 = s.index by omega] at this
      exact this
  · rename_i hh
    have hh : (gridOf g s).horizontal = false := by show g.horizontal = false; simpa using hh
    rw [(nav_index g _).1]
    dsimp only
    obtain ⟨hr, hb⟩ := lower_next (wrap := g.wrap) (N := s.matchCols) hz.2.2.1 hz.2.2.2 hz.1 h0 h1
    rcases hb with ⟨hlex, hbet⟩ | ⟨hi, hw⟩
    · left
      exact nextAcross_of hf hr ⟨h0, h1⟩ ((lex_v hh).2 hlex) fun k k0 k1 h2 h3 => hbet k k0 k1 ((lex_v hh).1 h2) ((lex_v hh).1 h3)
    · right
      refine ⟨hi, ?_⟩
      split
      · rename_i hww
        rw [if_pos hww] at hw
        exact lastAcross_of hf hr fun k k0 k1 h2 => hw k k0 k1 ((lex_v hh).1 h2)
      · rename_i hww
        rw [if_neg hww] at hw; exact hw

theorem up_spec {g : Cfg} {s : St} (h : Inv g s) :
    (gridOf g s).NextDown (up g s).index s.index ∨
      s.index = 0 ∧ if g.wrap then (gridOf g s).LastDown (up g s).index else (up g s).index = 0 := by
  have hf := h.grid.fits
  have h0 := h.index0
  have h1 := h.index1
  have hz := h.sizes
  have hc := h.grid.count
  unfold up
  split
  · rename_i hh'
    have hh : (gridOf g s).horizontal = true := hh'
    rw [(nav_index g _).1]
    dsimp only
    obtain ⟨hr, hb⟩ := lower_next (wrap := g.wrap) (N := s.matchRows) h.grid.cols (h.grid.few hh') (by rw [Int.mul_comm]; exact hz.1) h0 h1
    rcases hb with ⟨hlex, hbet⟩ | ⟨hi, hw⟩
    · left
      exact nextDown_of hf hr ⟨h0, h1⟩ ((lex_h hh).2 hlex) fun k k0 k1 h2 h3 => hbet k k0 k1 ((lex_h hh).1 h2) ((lex_h hh).1 h3)
    · right
      refine ⟨hi, ?_⟩
      split
      · rename_i hww
        rw [if_pos hww] at hw
        exact lastDown_of hf hr fun k k0 k1 h2 => hw k k0 k1 ((lex_h hh).1 h2)
      · rename_i hww
        rw [if_neg hww] at hw; exact hw
  · rename_i hh
    have hh : (gridOf g s).horizontal = false := by show g.horizontal = false; simpa using hh
    rw [prev_index]
    by_cases hx : s.index - 1 < 0
    · right
      rw [if_pos hx]
      refine ⟨by omega, ?_⟩
      have := last_number hf
      rw [if_neg (by rw [hh]; simp)] at this
      cases hw : g.wrap
      · rfl
      · exact this
    · left
      rw [if_neg hx]
      have := next_number hf (i := s.index - 1) (by omega) (by show s.index - 1 + 1 < s.count; omega)
      rw [if_neg (by rw [hh]; simp), show s.index - 1 + 1 = s.index by omega] at this
      exact this

end Clink.Menu
