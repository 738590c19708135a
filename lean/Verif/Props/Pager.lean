import Verif.Proof.Pager

/-!
C62: lists are shown page by page, in order and with nothing left out.

`showList rows xs input` is what is seen of the list `xs` in a terminal with so many rows: items, and prompts with their answers.
`showMatches` is the same for the list of matches, which has a pager of its own.  `Between` and `First` give the items between two
prompts and before the first one.
-/

namespace Clink.Pager
open Spec

/-- What is seen is the beginning of the list, in order.  It is the whole list unless the answer is to stop. -/
theorem C62_order (rows : Nat) (xs : List Item) (input : List (Nat × Nat)) :
    shown (showList rows xs input) <+: xs ∧ (¬ Stopped (showList rows xs input) → shown (showList rows xs input) = xs) :=
  showFrom_order xs _ input (by unfold firstPage; omega)

/-- Nothing is seen after the answer to stop. -/
theorem C62_stop {rows r : Nat} {xs : List Item} {input : List (Nat × Nat)} {a d : List Ev}
    (h : showList rows xs input = a ++ .prompt (some (.stop, r)) :: d) : d = [] := by
  rcases showFrom_after xs _ input a d .stop r (by unfold firstPage; omega) h with ⟨_, h⟩ | ⟨_, _, _, h, _⟩
  · exact h
  · exact absurd rfl h

/-- Before the first prompt: what has been seen leaves room for the prompt and one more line, and the next item does not fit. -/
theorem C62_first {rows : Nat} {xs : List Item} {input : List (Nat × Nat)} {seg : List Item} {after : List Ev}
    (h : First (showList rows xs input) seg after) :
    height seg + 2 ≤ rows ∧ ∃ x more, xs = seg ++ x :: more ∧ rows ≤ height seg + x.2 + 1 := by
  obtain ⟨b, h⟩ := h
  obtain ⟨h1, h2, x, more, h3, h4⟩ := showFrom_first xs _ input seg b after (by unfold firstPage; omega) h
  unfold firstPage at h1 h2 h4
  refine ⟨?_, x, more, h3, by omega⟩
  by_cases hs : seg = []
  · subst hs; simp only [height, List.map_nil, List.sum_nil]; omega
  · have := h2 hs; omega

/-- Between two prompts there is one item, and then those that stay below the number of lines that was asked for. -/
theorem C62_next {rows r : Nat} {xs : List Item} {input : List (Nat × Nat)} {k : Key} {seg : List Item} {before after : List Ev}
    (h : Between (showList rows xs input) k r seg before after) :
    ∃ x rest y more, seg = x :: rest ∧ xs = shown before ++ seg ++ y :: more ∧ height rest < wanted k r ∧ wanted k r ≤ height rest + y.2 := by
  obtain ⟨b, h⟩ := h
  rcases showFrom_after xs _ input before _ k r (by unfold firstPage; omega) h with ⟨_, h1⟩ | ⟨x, more, rest, _, h1, h2⟩
  · cases seg <;> cases h1
  · cases seg with
    | nil => cases h2
    | cons y seg =>
      simp only [List.map_cons, List.cons_append, List.cons.injEq, Ev.item.injEq] at h2
      obtain ⟨rfl, h2⟩ := h2
      obtain ⟨h3, h4, z, more', h5, h6⟩ := showFrom_first more _ rest seg b after (by omega) h2.symm
      refine ⟨y, seg, z, more', rfl, by simp [h1, h5], ?_, by omega⟩
      by_cases hs : seg = []
      · subst hs; simp only [height, List.map_nil, List.sum_nil]; omega
      · have := h4 hs; omega

/-- If every item is one line: the first page has two lines less than the terminal, and the answers give exactly one line, half of the
rows, or two less than the rows. -/
theorem C62_lines {rows : Nat} {xs : List Item} {input : List (Nat × Nat)} (h1 : ∀ x ∈ xs, x.2 = 1) :
    (∀ seg after, First (showList rows xs input) seg after → seg.length + 2 = rows) ∧
    (∀ k r seg before after, Between (showList rows xs input) k r seg before after → seg.length = wanted k r) := by
  have hh : ∀ l : List Item, (∀ x ∈ l, x.2 = 1) → height l = l.length := by
    intro l
    induction l with
    | nil => intro _; rfl
    | cons x l ih =>
      intro h
      have := ih fun y hy => h y (by simp [hy])
      have h2 := h x (by simp)
      simp only [height, List.map_cons, List.sum_cons, List.length_cons] at *
      omega
  constructor
  · intro seg after h
    obtain ⟨a, x, more, rfl, c⟩ := C62_first h
    have e := hh seg fun y hy => h1 y (by simp [hy])
    have f := h1 x (by simp)
    omega
  · intro k r seg before after h
    obtain ⟨x, rest, y, more, rfl, rfl, c, d⟩ := C62_next h
    have e := hh rest fun z hz => h1 z (by simp [hz])
    have f := h1 y (by simp)
    simp only [List.length_cons]
    omega

/-- If no item has more than two lines, then everything between two prompts is still on the screen at the second one. -/
theorem C62_screen {rows r : Nat} {xs : List Item} {input : List (Nat × Nat)} (h2 : ∀ x ∈ xs, x.2 ≤ 2) {k : Key} {seg : List Item} {before after : List Ev}
    (h : Between (showList rows xs input) k r seg before after) (hr : 3 ≤ r) : height seg + 1 ≤ r := by
  obtain ⟨x, rest, y, more, rfl, rfl, c, d⟩ := C62_next h
  have f := h2 x (by simp)
  have e : wanted k r ≤ r - 2 ∨ wanted k r ≤ r / 2 ∨ wanted k r ≤ 1 := by cases k <;> simp [wanted]
  simp only [height, List.map_cons, List.sum_cons] at *
  omega

/-- In a terminal with at most two rows everything is shown at once after the first answer to show a page. -/
theorem C62_small {rows r : Nat} {xs : List Item} {input : List (Nat × Nat)} {a d : List Ev} (hr : r ≤ 2)
    (h : showList rows xs input = a ++ .prompt (some (.page, r)) :: d) : xs = shown a ++ shown d ∧ d = (shown d).map .item := by
  rcases showFrom_after xs _ input a d .page r (by unfold firstPage; omega) h with ⟨h1, _⟩ | ⟨x, more, rest, _, h1, h2⟩
  · cases h1
  · have hw : ((wanted .page r : Nat) : Int) = 0 := by simp only [wanted]; omega
    rw [hw, showFrom_unlimited] at h2
    subst h2
    have e : shown (.item x :: more.map .item) = x :: more := by simp [shown, shown_items]
    rw [e]
    exact ⟨h1, rfl⟩

/-- An item of three lines is not counted if it is the first one of a page: its first line is gone when the next prompt is shown. -/
theorem C62_screen_violated : ∃ (rows : Nat) (xs : List Item) (input : List (Nat × Nat)) (seg : List Item) (before after : List Ev),
    Between (showList rows xs input) .page rows seg before after ∧ rows = 10 ∧ (∀ x ∈ xs, x.2 ≤ 3) ∧ height seg + 1 > rows := by
  refine ⟨10, List.replicate 8 ([], 1) ++ ([], 3) :: List.replicate 20 ([], 1), [(32, 10)], ([], 3) :: List.replicate 7 ([], 1),
    List.replicate 8 (.item ([], 1)), [], ⟨none, by decide +kernel⟩, rfl, by decide +kernel, by decide +kernel⟩

/-- A caller that goes on after the answer to stop is refused once, and then everything is shown without any prompt. -/
theorem C62_again_violated : ∃ (m : Int) (input : List (Nat × Nat)), ∀ (a b : Nat),
    let r1 := onPrintLines m 1 input
    let r2 := onPrintLines r1.max a r1.input
    let r3 := onPrintLines r2.max b r2.input
    r1.ok = false ∧ r1.asked = [.prompt (some (.stop, 25))] ∧ r2.ok = false ∧ r3.ok = true ∧ r3.asked = [] ∧ r3.max = 0 :=
  ⟨1, [(113, 25)], fun a b => by simp [onPrintLines, ask, pagerKey]⟩

/-! ## The list of matches -/

/-- The rows of the list have every match exactly once, and as many in a row as there are columns at most. -/
theorem C62_grid {count limit : Nat} (hl : 0 < limit) (horizontally : Bool) :
    (matchRows count limit horizontally).flatten.Perm (List.range count) ∧
    (∀ r ∈ matchRows count limit horizontally, r ≠ [] ∧ r.length ≤ limit ∧ r.Pairwise (· < ·)) := by
  refine ⟨matchRows_perm count limit hl horizontally, fun r hr => ?_⟩
  simp only [matchRows, List.mem_map, List.mem_range] at hr
  obtain ⟨i, hi, rfl⟩ := hr
  have hr : 0 < (count + (limit - 1)) / limit := by omega
  refine ⟨?_, columns_length _ _ _ _ _, columns_sorted _ _ _ (by cases horizontally; exact hr; exact Nat.one_pos) _ _⟩
  have hi' := (ceil_facts (count := count) hl i).1 hi
  cases horizontally with
  | true =>
    have := (place count limit hl true i (i * limit) hi).2 ⟨hi', by simp [Nat.mul_div_cancel _ hl]⟩
    exact List.ne_nil_of_mem this
  | false =>
    have h2 : i < count := Nat.lt_of_le_of_lt (Nat.le_mul_of_pos_right i hl) hi'
    have := (place count limit hl false i i hi).2 ⟨h2, by simp [Nat.mod_eq_of_lt hi]⟩
    exact List.ne_nil_of_mem this

/-- Going across, row `i` has the matches from `i * limit`.  Going down, it has those whose number is `i` more than a multiple of the
number of rows, which is as small as possible. -/
theorem C62_place {count limit : Nat} (hl : 0 < limit) :
    (∀ i r, (matchRows count limit true)[i]? = some r → ∀ y, y ∈ r ↔ y < count ∧ y / limit = i) ∧
    (∀ i r, (matchRows count limit false)[i]? = some r → ∀ y, y ∈ r ↔ y < count ∧ y % (matchRows count limit false).length = i) ∧
    (∀ h n, n < (matchRows count limit h).length ↔ n * limit < count) := by
  have hlen : ∀ h, (matchRows count limit h).length = (count + (limit - 1)) / limit := by intro h; simp [matchRows]
  refine ⟨fun i r hr y => ?_, fun i r hr y => ?_, fun h n => ?_⟩
  · have hi : i < (count + (limit - 1)) / limit := by rw [← hlen true]; exact (List.getElem?_eq_some_iff.1 hr).1
    have e := (List.getElem?_eq_some_iff.1 hr).2
    simp only [matchRows, List.getElem_map, List.getElem_range] at e
    have := place count limit hl true i y hi
    simp only [if_true] at this e
    rw [← e, this]
    exact and_congr_right fun _ => eq_comm
  · have hi : i < (count + (limit - 1)) / limit := by rw [← hlen false]; exact (List.getElem?_eq_some_iff.1 hr).1
    have e := (List.getElem?_eq_some_iff.1 hr).2
    simp only [matchRows, List.getElem_map, List.getElem_range] at e
    have := place count limit hl false i y hi
    simp only [Bool.false_eq_true, if_false] at this e
    rw [← e, this, hlen]
    exact and_congr_right fun _ => eq_comm
  · rw [hlen]; exact ceil_facts hl n

/-- Every match is seen exactly once unless the answer is to stop.  Without paging there is no prompt at all. -/
theorem C62_matches_all {pages : Bool} {height count limit : Nat} (hl : 0 < limit) (horizontally : Bool) (wide : List Nat → Nat) (input : List (Nat × Nat)) :
    (¬ Stopped (showMatches pages height count limit horizontally wide input) →
      ((shown (showMatches pages height count limit horizontally wide input)).flatMap (·.1)).Perm (List.range count)) ∧
    (pages = false → ∀ e ∈ showMatches pages height count limit horizontally wide input, ∃ x, e = .item x) := by
  constructor
  · intro h
    unfold showMatches at h ⊢
    rw [(showRows_order pages height _ 0 input (by omega)).2 h]
    have e : (((matchRows count limit horizontally).map fun r => (r, wide r)).flatMap (·.1)) = (matchRows count limit horizontally).flatten := by
      rw [List.flatMap_map]
      simp [List.flatMap_def]
    rw [e]
    exact matchRows_perm count limit hl horizontally
  · rintro rfl
    have : ∀ (xs : List Item) (l : Int) (inp : List (Nat × Nat)), showRows false height l xs inp = xs.map .item := by
      intro xs
      induction xs with
      | nil => intro l inp; rw [showRows_nil]; rfl
      | cons x xs ih => intro l inp; rw [showRows, if_neg (by simp), ih]; rfl
    intro e he
    unfold showMatches at he
    rw [this] at he
    obtain ⟨x, _, rfl⟩ := List.mem_map.1 he
    exact ⟨x, rfl⟩

theorem height_zero {xs : List Item} (h1 : ∀ x ∈ xs, 1 ≤ x.2) (h : height xs = 0) : xs = [] := by
  cases xs with
  | nil => rfl
  | cons x xs =>
    have := h1 x (by simp)
    simp only [height, List.map_cons, List.sum_cons] at h
    omega

/-- What is seen before the first prompt is on the screen together with the prompt, unless it is only one row; and the next row would
not fit. -/
theorem C62_matches_first {h : Nat} {xs : List Item} (h1 : ∀ x ∈ xs, 1 ≤ x.2) {input : List (Nat × Nat)} {seg : List Item} {after : List Ev}
    (hf : First (showRows true h 0 xs input) seg after) :
    (height seg + 1 ≤ h ∨ seg.length = 1) ∧ seg ≠ [] ∧ ∃ x more, xs = seg ++ x :: more ∧ h ≤ height seg + x.2 := by
  obtain ⟨b, hf⟩ := hf
  obtain ⟨_, h2, h3, x, more, h4, h5⟩ := showRows_first true h xs 0 input seg b after (by omega) hf
  have hne : seg ≠ [] := by rintro rfl; simp [height] at h3
  refine ⟨?_, hne, x, more, h4, by omega⟩
  rcases h2 hne with h2 | ⟨y, z, h2, rfl⟩
  · left; omega
  · right
    have : y = [] := height_zero (fun w hw => h1 w (by rw [h4]; simp [hw])) (by omega)
    subst this
    rfl

/-- The same between two prompts.  The answer to show one line gives one row, and the answer to show a page gives as many rows as fit. -/
theorem C62_matches_next {h r : Nat} {xs : List Item} (h1 : ∀ x ∈ xs, 1 ≤ x.2) {input : List (Nat × Nat)} {k : Key} {seg : List Item} {before after : List Ev}
    (hb : Between (showRows true h 0 xs input) k r seg before after) :
    (height seg + 1 ≤ h ∨ seg.length = 1) ∧ (k = .line → seg.length = 1) ∧ k ≠ .stop ∧
      ∃ x more, xs = shown before ++ seg ++ x :: more ∧ (k = .page → h ≤ height seg + x.2) := by
  obtain ⟨b, hb⟩ := hb
  rcases showRows_after true h xs 0 input before _ k r (by omega) hb with ⟨_, h2⟩ | ⟨x, more, rest, l, hk1, hk2, hk3, h2, h3, h4, h5⟩
  · cases seg <;> cases h2
  cases seg with
  | nil => cases h5
  | cons y seg =>
    simp only [List.map_cons, List.cons_append, List.cons.injEq, Ev.item.injEq] at h5
    obtain ⟨rfl, h5⟩ := h5
    have hp := internalPager_le hk1 ⟨hk2, hk3⟩ h3
    have hy := h1 y (by rw [h2]; simp)
    obtain ⟨_, h6, h7, z, more', h8, h9⟩ := showRows_first true h more _ rest seg b after (by omega) h5.symm
    have hs1 : ∀ w ∈ seg, 1 ≤ w.2 := fun w hw => h1 w (by rw [h2, h8]; simp [hw])
    have hfit : seg ≠ [] → internalPager k l + y.2 + height seg < h := by
      intro hne
      rcases h6 hne with h6 | ⟨u, v, h6, _⟩
      · exact h6
      · omega
    refine ⟨?_, ?_, hk1, z, more', by rw [h2, h8]; simp, ?_⟩
    · by_cases hs : seg = []
      · right; rw [hs]; rfl
      · left
        have := hfit hs
        simp only [height, List.map_cons, List.sum_cons] at *
        omega
    · rintro rfl
      by_cases hs : seg = []
      · rw [hs]; rfl
      · have h10 := hfit hs
        have h11 : height seg ≠ 0 := fun h => hs (height_zero hs1 h)
        simp only [internalPager] at h10
        omega
    · rintro rfl
      simp only [internalPager] at h9
      simp only [height, List.map_cons, List.sum_cons] at *
      omega

/-! ## Examples -/

def lines (n : Nat) : List Item := (List.range n).map fun i => ([i], 1)

-- C62_order, C62_first, C62_next, C62_lines: 6 rows; a page, one line, a key that is not known, half a page, help, and stop
example : showList 6 (lines 20) [(32, 6), (13, 6), (120, 6), (100, 6), (63, 6), (113, 6)] =
    (lines 4).map .item ++ [.prompt (some (.page, 6))] ++ ((lines 8).drop 4).map .item ++ [.prompt (some (.line, 6)), .item ([8], 1), .prompt (some (.half, 6))] ++
      ((lines 12).drop 9).map .item ++ [.prompt (some (.stop, 6))] := by decide +kernel
example : Between (showList 6 (lines 20) [(32, 6)]) .page 6 ((lines 8).drop 4) ((lines 4).map .item) [] := ⟨none, by decide +kernel⟩
example : ∃ after, First (showList 6 (lines 20) [(32, 6)]) (lines 4) after := ⟨((lines 8).drop 4).map .item ++ [.prompt none], some (.page, 6), by decide +kernel⟩
-- C62_order, C62_stop: not stopped, and stopped
example : ¬ Stopped (showList 6 (lines 5) [(32, 6)]) := by rintro (h | ⟨r, h⟩) <;> revert h <;> simp [show (showList 6 (lines 5) [(32, 6)]).getLast? = some (.item ([4], 1)) by decide +kernel]
example : Stopped (showList 6 (lines 5) [(113, 6)]) := .inr ⟨6, by decide +kernel⟩
example : shown (showList 6 (lines 5) [(32, 6)]) = lines 5 ∧ shown (showList 6 (lines 5) [(113, 6)]) = lines 4 := by decide +kernel
-- C62_small: two rows
example : showList 2 (lines 9) [(32, 2)] = .prompt (some (.page, 2)) :: (lines 9).map .item := by decide +kernel
-- C62_grid, C62_place
example : matchRows 7 3 false = [[0, 3, 6], [1, 4], [2, 5]] ∧ matchRows 7 3 true = [[0, 1, 2], [3, 4, 5], [6]] := by decide +kernel
example : matchRows 0 3 true = [] := by decide +kernel
-- C62_matches_all, C62_matches_first, C62_matches_next
example : showMatches true 3 7 2 false (fun _ => 1) [(13, 3), (32, 3), (32, 3)] =
    [.item ([0, 4], 1), .item ([1, 5], 1), .prompt (some (.line, 3)), .item ([2, 6], 1), .prompt (some (.page, 3)), .item ([3], 1)] := by decide +kernel
example : Between (showRows true 3 0 (lines 9) [(13, 3), (32, 3)]) .page 3 [([3], 1), ([4], 1)]
    [.item ([0], 1), .item ([1], 1), .prompt (some (.line, 3)), .item ([2], 1)] [] := ⟨none, by decide +kernel⟩

end Clink.Pager
