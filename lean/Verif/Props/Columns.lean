import Verif.Proof.Columns
import Verif.Proof.Ellipsify

/-!
C27: matches are laid out in columns that fit on the screen.

`calculate g l` is the layout of the matches `l`; `rowsOf` the matches of the rows as they are printed; `printRows` the
cells of the rows.  `Spec.shown` and `Spec.described` are the cells that a match and its description take, `Spec.total`
is the width of a row.
-/

namespace Clink.Columns
open Spec

/-- There is a column; each column has a width and a width for matches; between columns are two cells, or four if there
are descriptions. -/
theorem C27_columns {g : Cfg} {l : List Item} (hs : Small g l) :
    0 < (calculate g l).widths.length ∧ (calculate g l).matchLens.length = (calculate g l).widths.length ∧
    (calculate g l).colPad = if g.omitDesc = false ∧ g.hasDesc = true then 4 else 2 := by
  refine ⟨by rw [widths_length]; exact limit_pos hs, by rw [widths_length, matchLens_length], ?_⟩
  rw [calculate_pad]
  unfold Cfg.pad Cfg.descs
  cases g.omitDesc <;> cases g.hasDesc <;> rfl

/-- More than one column is chosen only if the columns fit on the screen; a cell of the screen is left free. -/
theorem C27_fits {g : Cfg} {l : List Item} (hs : Small g l) (hn : 1 < (calculate g l).widths.length) :
    total (calculate g l).widths (calculate g l).colPad < g.screen := by
  have := fits hs hn
  have := width_le g
  omega

/-- Every match is printed in its column: the column is wide enough for the match and its description. -/
theorem C27_room {g : Cfg} {l : List Item} (hs : Small g l) {i c k : Nat} {x : Item} {m w : Nat}
    (hat : At (rowsOf g.vertical l.length (calculate g l).widths.length) i c k) (hx : l[k]? = some x)
    (hm : (calculate g l).matchLens[c]? = some m) (hw : (calculate g l).widths[c]? = some w) :
    shown g x ≤ m ∧ shown g x + described g x ≤ w := room hs hat hx hm hw

/-- If descriptions begin at the same cell in a column, then they fit in the column from there on.  The columns must be
fitted to the matches: this is not so if all columns have the same width. -/
theorem C27_begins {g : Cfg} {l : List Item} (hs : Small g l) (hfit : canFit g l.length = true) (hone : g.oneColumn = false)
    (hn : 1 < (calculate g l).widths.length) (hr : (calculate g l).rightJustify = false)
    {i c k : Nat} {x : Item} {m w : Nat}
    (hat : At (rowsOf g.vertical l.length (calculate g l).widths.length) i c k) (hx : l[k]? = some x)
    (hm : (calculate g l).matchLens[c]? = some m) (hw : (calculate g l).widths[c]? = some w) :
    m + described g x ≤ w :=
  begins hs (by unfold fixedCols; rw [hfit, hone]; rfl) (.inl hn) hr hat hx hm hw

/-- Every match is printed in exactly one row and column, whatever the number of columns. -/
theorem C27_once (v : Bool) (count n : Nat) (hn : 0 < n) :
    (∀ k, k < count → ∃ i c, At (rowsOf v count n) i c k ∧ ∀ i' c', At (rowsOf v count n) i' c' k → i' = i ∧ c' = c) ∧
    ∀ i c k, At (rowsOf v count n) i c k → k < count ∧ c < n := by
  obtain ⟨j, rfl⟩ : ∃ j, n = j + 1 := ⟨n - 1, by omega⟩
  refine ⟨fun k hk => ?_, fun i c k h => ?_⟩
  · obtain ⟨i, h⟩ := col_at (v := v) (j := j) hk
    refine ⟨i, _, h, fun i' c' h' => ⟨?_, (at_col h').2⟩⟩
    rw [at_row h, at_row h']
  · obtain ⟨h1, h2⟩ := at_col h
    exact ⟨h1, by rw [h2]; exact colIdx_lt h1⟩

/-- Rows are read from left to right, or columns from top to bottom: the next match in the order is the next in the row
or in the column. -/
theorem C27_order (v : Bool) (count n : Nat) (hn : 0 < n) {i c k i' c' k' : Nat}
    (h : At (rowsOf v count n) i c k) (h' : At (rowsOf v count n) i' c' k') :
    k < k' ↔ if v then c < c' ∨ (c = c' ∧ i < i') else i < i' ∨ (i = i' ∧ c < c') := by
  obtain ⟨a1, a2, a3, a4⟩ := (at_iff ..).1 h
  obtain ⟨b1, b2, b3, b4⟩ := (at_iff ..).1 h'
  have key : ∀ (R a b a' b' : Nat), a < R → a' < R →
      (a + b * R < a' + b' * R ↔ b < b' ∨ (b = b' ∧ a < a')) := by
    intro R a b a' b' h1 h2
    rcases Nat.lt_trichotomy b b' with e | e | e
    · have := Nat.mul_le_mul_right R (show b + 1 ≤ b' from e)
      rw [Nat.succ_mul] at this
      omega
    · subst e; omega
    · have := Nat.mul_le_mul_right R (show b' + 1 ≤ b from e)
      rw [Nat.succ_mul] at this
      omega
  cases v with
  | true =>
    simp only [if_true, Nat.mul_one] at a4 b4 ⊢
    rw [a4, b4, key _ _ _ _ _ a1 b1]
  | false =>
    simp only [Bool.false_eq_true, if_false, Nat.mul_one] at a4 b4 ⊢
    rw [a4, b4, Nat.add_comm (i * n), Nat.add_comm (i' * n), key _ _ _ _ _ a2 b2]

/-- As many columns as possible are chosen: there is no wider layout of up to 50 columns that has room for all matches
and leaves two cells of the screen free. -/
theorem C27_most {g : Cfg} {l : List Item} (hs : Small g l) (hfit : canFit g l.length = true) (hone : g.oneColumn = false)
    {ms ws : List Nat} (hr : Room g l ms ws) (hn : (calculate g l).widths.length < ws.length) (h50 : ws.length ≤ 50)
    (hc : ws.length ≤ l.length) : ¬ total ws (calculate g l).colPad + 1 < g.width := by
  have := most hs (by unfold fixedCols; rw [hfit, hone]; rfl) hr hn h50 hc
  rw [calculate_pad]; omega

/-- What `ellipsify` does to descriptions whose widths are known is as wanted, whatever bytes they are. -/
theorem C27_ellipsifies (env : Ellipsify.Env) (he : Ellipsify.cellCount env false Ellipsify.ellipsis = 1) (descs : Nat → List Nat) {l : List Item}
    (hd : ∀ i x, l[i]? = some x → Ellipsify.cellCount env false (descs i) = x.desc) :
    Ellipsifies (fun i n => (Ellipsify.ellipsify env (descs i) n false).2.toNat) l where
  keep := by
    intro i x n hx hn
    have h1 := hd i x hx
    rw [Ellipsify.ellipsify_keep false (descs i) (by omega), h1]
    omega
  limit := by
    intro i n hn
    have := Ellipsify.ellipsify_limit (descs i) hn he false
    omega

/-- The rows as printed, without descriptions or with right justified descriptions: cells begin where their columns
begin and end within them. -/
theorem C27_printed {ell : Nat → Int → Nat} {g : Cfg} {l : List Item} (hell : Ellipsifies ell l) (hs : Small g l)
    (hom : g.omitDesc = false) (hd : g.hasDesc = false ∨ (calculate g l).rightJustify = true)
    {i c : Nat} {r : List Cell} {cell : Cell} (hr : (printRows ell g l)[i]? = some r) (hc : r[c]? = some cell) :
    ∃ x w, At (rowsOf g.vertical l.length (calculate g l).widths.length) i c cell.item ∧ l[cell.item]? = some x ∧
      (calculate g l).widths[c]? = some w ∧
      cell.start = startOf (calculate g l).widths (calculate g l).colPad c ∧
      cell.matchEnd = cell.start + shown g x ∧ cell.stop ≤ cell.start + w ∧
      (1 < (calculate g l).widths.length → cell.stop < g.screen) ∧
      ((calculate g l).rightJustify = true → 2 ≤ g.screen → x.desc ≠ 0 → x.desc ≤ 1024 →
        cell.desc = some (cell.start + w - (x.desc + 2), cell.start + w) ∧
        cell.matchEnd + 2 ≤ cell.start + w - (x.desc + 2)) := by
  unfold printRows at hr
  simp only [List.getElem?_map, Option.map_eq_some_iff] at hr
  obtain ⟨ids, hids, rfl⟩ := hr
  have hpad : 0 < (calculate g l).colPad := by rw [calculate_pad]; have := pad_cases g; omega
  have hdp : (calculate g l).rightJustify = true → (calculate g l).descPad = 2 := fun h => (justified h).2.1
  have hfacts : ∀ (t k : Nat), ids[t]? = some k → ∃ x wd, l[k]? = some x ∧ (calculate g l).widths[t]? = some wd ∧
      matchLen g x = shown g x ∧ shown g x + described g x ≤ wd := by
    intro t k hk
    have hat : At (rowsOf g.vertical l.length (calculate g l).widths.length) i t k := ⟨ids, hids, hk⟩
    have h1 := (at_iff ..).1 hat
    have hx : l[k]? = some l[k] := List.getElem?_eq_getElem h1.2.2.1
    have hw : (calculate g l).widths[t]? = some ((calculate g l).widths[t]'h1.2.1) := List.getElem?_eq_getElem _
    have hm : (calculate g l).matchLens[t]? = some ((calculate g l).matchLens[t]'(by
      rw [(C27_columns hs).2.1]; exact h1.2.1)) := List.getElem?_eq_getElem _
    exact ⟨_, _, hx, hw, matchLen_eq hs (List.getElem_mem _), (room hs hat hx hm hw).2⟩
  have h0 : startOf (calculate g l).widths (calculate g l).colPad 0 = 0 := by simp [startOf]
  have hgo := printFrom_ok hell (g := g) (w := calculate g l) (items := l) hom hd hdp hpad ids 0
    (fun t k hk => by rw [Nat.zero_add]; exact hfacts t k hk) c cell (by rw [h0]; exact hc)
  rw [Nat.zero_add] at hgo
  obtain ⟨x, wd, hx, hw, hcell⟩ := hgo
  have hit := printFrom_get ell g (calculate g l) l ids 0 0 c cell hc
  obtain ⟨x', wd', e1, e2, e3, e4⟩ := hfacts c cell.item hit
  rw [hx] at e1
  rw [hw] at e2
  have e1 := Option.some.inj e1
  have e2 := Option.some.inj e2
  subst e1; subst e2
  have hok := cell_ok hell (i := cell.item) (s := startOf (calculate g l).widths (calculate g l).colPad c)
    hx hom hd hdp hw e3 e4
  have hpr := cell_printed ell g (calculate g l) c cell.item (startOf (calculate g l).widths (calculate g l).colPad c) x
  rw [← hcell] at hok hpr
  have hst : cell.start = startOf (calculate g l).widths (calculate g l).colPad c := hpr.2.2.1
  refine ⟨x, wd, ⟨ids, hids, hit⟩, hx, hw, hst, ?_, ?_, ?_, ?_⟩
  · rw [hpr.2.2.2, hst, e3]
  · rw [hok.1, hst]; omega
  · intro hn
    have h1 := C27_fits hs hn
    have h2 := startOf_total (pad := (calculate g l).colPad) hw
    rw [hok.1]; omega
  · intro hrj hscr hx0 hx1
    have hj := justified hrj
    have hhd : g.hasDesc = true := by
      have := hj.1; unfold Cfg.descs at this; rw [hom] at this; simpa using this
    have hwd : wd + 1 ≤ g.screen := by
      rcases Nat.lt_or_ge 1 (calculate g l).widths.length with hn | hn
      · have h1 := C27_fits hs hn
        have h2 := startOf_total (pad := (calculate g l).colPad) hw
        omega
      · have hw' := hw
        rw [justified_widths hrj] at hw'
        have hjj := hj.2.2
        unfold justifies at hjj
        simp only [Bool.and_eq_true, Bool.or_eq_true, decide_eq_true_eq] at hjj
        have hcl : c < (calculate g l).widths.length := by
          rcases Nat.lt_or_ge c (calculate g l).widths.length with h | h
          · exact h
          · rw [List.getElem?_eq_none h] at hw; cases hw
        have hc0 : c = 0 := by omega
        subst hc0
        have hhead : (firstWidths g l).headD 0 = wd := by
          cases hf : firstWidths g l with
          | nil => rw [hf] at hw'; cases hw'
          | cons a t => rw [hf] at hw'; simpa using hw'
        have hwid : g.width = g.screen := by unfold Cfg.width; rw [hj.1]; simp
        rw [hhead, hwid] at hjj
        omega
    have := hok.2.2 hrj hx0 hx1 hhd hwd
    rw [hst]
    exact this

/-- Descriptions that are not right justified: only the first cell of a row begins on the screen line of the row. -/
theorem C27_wraps (ell : Nat → Int → Nat) {g : Cfg} {l : List Item} (hscr : 1 ≤ g.screen) (hom : g.omitDesc = false)
    (hd : g.hasDesc = true) (hr : (calculate g l).rightJustify = false)
    {i c : Nat} {r : List Cell} {cell : Cell} (hrow : (printRows ell g l)[i]? = some r) (hc : r[c]? = some cell) :
    c * (g.screen + 3) ≤ cell.start := by
  unfold printRows at hrow
  simp only [List.getElem?_map, Option.map_eq_some_iff] at hrow
  obtain ⟨ids, hids, rfl⟩ := hrow
  have := printFrom_wrap ell l hd hr ids 0 0 c cell hc
  have hp : (calculate g l).colPad = 4 := by rw [calculate_pad]; unfold Cfg.pad Cfg.descs; rw [hom, hd]; rfl
  rw [hp, show g.screen - 1 + 4 = g.screen + 3 by omega] at this
  omega

/-! ### Samples -/

def plain (ns : List Nat) : List Item := ns.map fun n => { printable := n }

def sample : List Item := plain [3, 5, 2, 8, 1, 9, 4, 4, 12, 3]

example : Small { screen := 40 } sample := ⟨by decide, by decide, by decide⟩

/-- Four columns of different widths. -/
example : calculate { screen := 40 } sample =
    { widths := [5, 9, 12, 3], matchLens := [5, 9, 12, 3], colPad := 2, descPad := 0, rightJustify := false } := by
  decide +kernel

/-- The three rows. -/
example : rowsOf true 10 4 = [[0, 3, 6, 9], [1, 4, 7], [2, 5, 8]] ∧
    rowsOf false 10 4 = [[0, 1, 2, 3], [4, 5, 6, 7], [8, 9]] := by decide +kernel

/-- There is room for the matches in five columns of 40 cells together, but not on the screen. -/
example : Room { screen := 40 } sample [5, 8, 9, 4, 12] [5, 8, 9, 4, 12] := by
  have key : ∀ i < 2, ∀ c < 5, ∀ k < 10, ([[0, 2, 4, 6, 8], [1, 3, 5, 7, 9]].getD i []).getD c 10 = k →
      shown { screen := 40 } (sample.getD k { printable := 0 }) ≤ [5, 8, 9, 4, 12].getD c 0 ∧
      [5, 8, 9, 4, 12].getD c 0 + described { screen := 40 } (sample.getD k { printable := 0 }) ≤ [5, 8, 9, 4, 12].getD c 0 := by
    decide +kernel
  refine ⟨rfl, ?_, ?_⟩
  · intro c m w h1 h2
    rw [h1] at h2
    have := Option.some.inj h2
    subst this
    have hm : m ∈ [5, 8, 9, 4, 12] := List.mem_iff_getElem?.2 ⟨_, h1⟩
    have : ∀ m ∈ [5, 8, 9, 4, 12], 1 ≤ m := by decide
    exact ⟨this m hm, Nat.le_refl _⟩
  · intro i c k x m w hat hx hm hw
    obtain ⟨h1, h2, h3, _⟩ := (at_iff ..).1 hat
    obtain ⟨r, hr, hrk⟩ := hat
    have e : rowsOf true 10 5 = [[0, 2, 4, 6, 8], [1, 3, 5, 7, 9]] := by decide +kernel
    have hr : [[0, 2, 4, 6, 8], [1, 3, 5, 7, 9]][i]? = some r := by rw [← e]; exact hr
    rw [if_neg (by decide)]
    have := key i h1 c h2 k h3 (by simp only [List.getD, hr, hrk, Option.getD_some])
    simp only [List.getD, hx, hm, Option.getD_some] at this
    rw [hm] at hw
    have := Option.some.inj hw
    subst this
    assumption

/-- Descriptions cut to the limit. -/
def trim (l : List Item) (i : Nat) (n : Int) : Nat := min ((l[i]?.map (·.desc)).getD 0) n.toNat

/-- The rows as printed. -/
example : (printRows (trim sample) { screen := 40 } sample)[1]? = some
    [⟨1, 0, 5, none, 5⟩, ⟨4, 7, 8, none, 1⟩, ⟨7, 18, 22, none, 4⟩] := by decide +kernel

example (l : List Item) : Ellipsifies (trim l) l where
  keep i x n hx h := by simp only [trim, hx, Option.map_some, Option.getD_some]; omega
  limit i n h := by unfold trim; omega

/-- With descriptions of six cells. -/
def sampleDesc : List Item := sample.map fun x => { x with desc := 6 }

example : calculate { screen := 60, hasDesc := true } sampleDesc =
    { widths := [18, 22], matchLens := [18, 22], colPad := 4, descPad := 2, rightJustify := true } := by
  decide +kernel

example : (printRows (trim sampleDesc) { screen := 60, hasDesc := true } sampleDesc)[0]? = some
    [⟨0, 0, 3, some (10, 18), 18⟩, ⟨5, 22, 31, some (36, 44), 22⟩] := by decide +kernel

/-- All columns have the same width if there are more matches than are fitted. -/
example : (calculate { screen := 40, maxMatches := 9 } sample).widths = [12, 12] := by decide +kernel

/-- Descriptions that are aligned are not right justified; the columns fit, but the second match of a row is printed on
another line of the screen. -/
def sampleAligned : List Item := (plain [3, 5, 2, 4]).map fun x => { x with desc := 5, aligned := true }

theorem C27_wrapped :
    (calculate { screen := 60, hasDesc := true } sampleAligned).widths = [14, 13, 1] ∧
    (printRows (trim sampleAligned) { screen := 60, hasDesc := true } sampleAligned)[0]? = some
      [⟨0, 0, 3, some (9, 14), 14⟩, ⟨2, 63, 65, some (71, 76), 13⟩] := by decide +kernel

/-- Widths are stored in 16 bits: a match of 65540 cells is taken for a match of 4 cells, and columns are chosen that it
does not fit in. -/
theorem C27_wide : (calculate { screen := 40 } (plain [65540, 3])).widths = [4, 3] := by decide +kernel

/-- In columns of the same width descriptions that begin at the same cell do not always fit. -/
theorem C27_same_width :
    let l := [({ printable := 9, aligned := true } : Item), { printable := 1, desc := 5, aligned := true }]
    (calculate { screen := 60, hasDesc := true, maxMatches := -1 } l).widths = [10, 10, 10, 10] ∧
    (calculate { screen := 60, hasDesc := true, maxMatches := -1 } l).matchLens = [9, 9, 9, 9] ∧
    described { screen := 60, hasDesc := true, maxMatches := -1 } { printable := 1, desc := 5, aligned := true } = 9 := by
  decide +kernel

end Clink.Columns
