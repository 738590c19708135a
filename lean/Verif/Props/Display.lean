import Verif.Proof.DisplayClick
import Verif.Props.Ellipsify

/-!
C45: the input line on the screen.  C46: scrolling.  C47: mouse clicks.
-/

namespace Clink.Display

open Doskey.Spec (flat)
open Ellipsify (Env)
open Ellipsify.Spec (Glyph Glyphs)
open Spec

variable {env : Env} {su : Setup} {p x : Nat} {cs : List Nat} {gs : List (List Nat × Int)} {rows : List (List Piece)}

/-- The characters of every line can be arranged on rows. -/
theorem C45_arranged (hz : env.variant 0 = false) (h10 : env.wc 10 < 0) (h : Line env cs gs) (W x : Nat) (lf : Bool) :
    ∃ rows, Arranged W x (pieces lf 0 gs) rows := by
  obtain ⟨rows, -, h1, -⟩ := parse_go (su := ⟨W, 0, lf, fun _ => 0⟩) (p := 0) (x := x) hz h10 h
  exact ⟨rows, h1⟩

/-- There is only one way to arrange them, unless there are characters that are wider than the screen. -/
theorem C45_unique {W x : Nat} {ps : List Piece} {rows' : List (List Piece)} (h0 : 0 < W) (hw : ∀ q ∈ ps, q.width ≤ W) (h : Arranged W x ps rows)
    (h' : Arranged W x ps rows') : rows = rows' :=
  arranged_same h0 hw rows rows' [] h h'

/-- The display consists of rows for the prompt, which `parse` leaves empty, and of the rows of the arrangement. -/
theorem C45_rows (hz : env.variant 0 = false) (h10 : env.wc 10 < 0) (h : Line env cs gs) (h0 : 0 < su.width)
    (hw : ∀ q ∈ pieces su.lf 0 gs, q.width ≤ su.width) (hr : Arranged su.width x (pieces su.lf 0 gs) rows) :
    ∃ ds, (parse env su p x (flat cs)).all = List.replicate p ({} : Row) ++ ds ∧ ds.length = rows.length ∧
      ∀ A r B, rows = A ++ r :: B → ∃ d, ds[A.length]? = some d ∧ Holds su.width x (flat cs).length su.face A r B d := by
  obtain ⟨rows', ds, h1, h2, h3, h4, -⟩ := parse_go (su := su) (p := p) (x := x) hz h10 h
  obtain rfl := C45_unique h0 hw hr h1
  exact ⟨ds, h2, h3, h4⟩

/-- The cursor is where the character at `rl_point` is shown. -/
theorem C45_cursor (hz : env.variant 0 = false) (h10 : env.wc 10 < 0) (h : Line env cs gs) (h0 : 0 < su.width)
    (hw : ∀ q ∈ pieces su.lf 0 gs, q.width ≤ su.width) (hr : Arranged su.width x (pieces su.lf 0 gs) rows) :
    Cursor p x (flat cs).length su.point rows (parse env su p x (flat cs)).vpos (parse env su p x (flat cs)).cpos := by
  obtain ⟨rows', ds, h1, -, -, -, h5⟩ := parse_go (su := su) (p := p) (x := x) hz h10 h
  obtain rfl := C45_unique h0 hw hr h1
  exact h5

theorem pieces_cover {lf : Bool} {point : Nat} : ∀ {gs : List (List Nat × Int)} {pos : Nat}, pos ≤ point → point < pos + size gs →
    ∃ q ∈ pieces lf pos gs, q.first = true ∧ q.pos ≤ point ∧ point < q.pos + q.len
  | [], pos, h1, h2 => by simp [size] at h2; omega
  | (w, n) :: gs, pos, h1, h2 => by
    by_cases hin : point < pos + (flat w).length
    · rw [pieces]
      unfold shown
      split
      · rename_i hl
        refine ⟨_, by simp; left; rfl, rfl, h1, ?_⟩
        rw [hl.2] at hin
        have : (flat [10]).length = 1 := by decide
        dsimp only
        omega
      · split
        · exact ⟨_, by simp; left; rfl, rfl, h1, hin⟩
        · exact ⟨_, by simp; left; rfl, rfl, h1, hin⟩
    · obtain ⟨q, k1, k2⟩ := pieces_cover (point := point) (gs := gs) (lf := lf) (pos := pos + (flat w).length) (by omega) (by simp [size] at h2 ⊢; omega)
      exact ⟨q, by rw [pieces]; simp [k1], k2⟩

/-- So there is always a character, or the end of the line, that has the cursor. -/
theorem C45_cursor_somewhere (h : Line env cs gs) {W : Nat} {lf : Bool} {point : Nat} (hp : point < (flat cs).length) (hr : Arranged W x (pieces lf 0 gs) rows) :
    ∃ A a q b B, rows = A ++ (a ++ q :: b) :: B ∧ q.first = true ∧ q.pos ≤ point ∧ point < q.pos + q.len := by
  obtain ⟨q, h1, h2⟩ := pieces_cover (lf := lf) (pos := 0) (Nat.zero_le point) (by rw [size_total h.glyphs]; omega)
  rw [← hr.all, List.mem_flatten] at h1
  obtain ⟨r, h3, h4⟩ := h1
  obtain ⟨A, B, h5⟩ := List.append_of_mem h3
  obtain ⟨a, b, h6⟩ := List.append_of_mem h4
  exact ⟨A, a, q, b, B, by rw [h5, h6], h2⟩

/-- The cursor is on the screen if the character at `rl_point` has a width, and behind the line. -/
theorem C45_cursor_visible (hz : env.variant 0 = false) (h10 : env.wc 10 < 0) (h : Line env cs gs) (h0 : 0 < su.width)
    (hw : ∀ q ∈ pieces su.lf 0 gs, q.width ≤ su.width) (hp : su.point ≤ (flat cs).length)
    (hn : ∀ q ∈ pieces su.lf 0 gs, q.pos ≤ su.point → su.point < q.pos + q.len → 0 < q.width) :
    p ≤ (parse env su p x (flat cs)).vpos ∧ (parse env su p x (flat cs)).vpos < (parse env su p x (flat cs)).all.length ∧
      (parse env su p x (flat cs)).cpos < su.width := by
  obtain ⟨rows, ds, h1, h2, h3, h4, h5⟩ := parse_go (su := su) (p := p) (x := x) hz h10 h
  have hlen : (parse env su p x (flat cs)).all.length = p + rows.length := by rw [h2]; simp [h3]
  rw [hlen]
  by_cases hpt : su.point < (flat cs).length
  · obtain ⟨A, a, q, b, B, k1, k2, k3, k4⟩ := C45_cursor_somewhere h hpt h1
    obtain ⟨e1, e2⟩ := h5.char A a q b B k1 k2 k3 k4
    have hq : q ∈ pieces su.lf 0 gs := by rw [← h1.all, k1]; simp
    have hpos := hn q hq k3 k4
    have hnl : q.newline = false := by
      cases hh : q.newline with
      | false => rfl
      | true =>
        unfold Piece.newline at hh; unfold Piece.width at hpos
        have : q.part = .newline := by simpa using hh
        rw [this] at hpos; cases hpos
    rw [e1, e2]
    refine ⟨by omega, by rw [k1]; simp, ?_⟩
    by_cases hA : A = [] ∨ a ≠ []
    · have := h1.fits A a q b B k1 hnl hA
      omega
    · have hA1 : A ≠ [] := fun h => hA (.inl h)
      have ha : a = [] := by
        by_cases ha : a = []
        · exact ha
        · exact absurd (.inr ha) hA
      simp [startCol, hA1, ha, width]; exact h0
  · rcases List.eq_nil_or_concat rows with hr | ⟨A, r, hr⟩
    · exact absurd hr h1.some
    · rw [List.concat_eq_append] at hr
      obtain ⟨e1, e2⟩ := h5.behind A r hr (by omega)
      rw [e1, e2]
      refine ⟨by omega, by rw [hr]; simp, ?_⟩
      by_cases hA : r ≠ [] ∨ A = []
      · exact h1.room A r hr hA
      · have hA1 : A ≠ [] := fun h => hA (.inr h)
        have ha : r = [] := by
          by_cases ha : r = []
          · exact ha
          · exact absurd (.inl ha) hA
        simp [startCol, hA1, ha, width]; exact h0

/-- The number of rows that are shown below the first one: there is no scrolling of rows if fewer than two rows may be used. -/
theorem offset_pos {v : View} (hp : v.botlin = 0) (hr : 2 ≤ v.maxRows) (hh : 2 ≤ v.height) (hv : v.vpos < v.count) : v.count = 1 ∧ v.vpos = 0 ∧ v.offset = 0 ∨ 0 < v.offset := by
  unfold View.offset
  omega

/-- Scrolling keeps the cursor in view if the last line of the prompt is on one row. -/
theorem C46_in_view {v : View} (hp : v.botlin = 0) (hr : 2 ≤ v.maxRows) (hh : 2 ≤ v.height) (hv : v.vpos < v.count) (old : Nat) : InView v (v.top old) := by
  rcases offset_pos hp hr hh hv with ⟨h1, h2, h3⟩ | h
  · have hk := keep_view hp hv old
    have h4 := hk.last
    rw [show v.top old = v.keep old from ?_]
    · exact hk
    · unfold View.top
      simp only [Bool.and_eq_true, decide_eq_true_eq, beq_iff_eq, hp]
      rw [if_neg (by omega), if_neg (by omega)]
  · exact top_view hp hv h old

/-- The cursor is never on the mark at the start of the first row that is shown, and not behind the mark at the end of the last row. -/
theorem C46_not_at_edge {v : View} (hp : v.botlin = 0) (hr : 2 ≤ v.maxRows) (hh : 2 ≤ v.height) (hv : v.vpos < v.count) (hx : ∀ i, 0 < i → v.x i = 0)
    (hw : 2 ≤ v.width) (old : Nat) : ¬ AtEdge v (v.top old) := by
  have hin := C46_in_view hp hr hh hv old
  rcases offset_pos hp hr hh hv with ⟨h1, h2, h3⟩ | h
  · have h4 := hin.last
    rintro (⟨h5, -, -⟩ | ⟨h5, -, -⟩) <;> omega
  · exact top_mark hp hv h hx hw old

/-- The display is not scrolled without need. -/
theorem C46_stays {v : View} (hp : v.botlin = 0) (hr : 2 ≤ v.maxRows) (hh : 2 ≤ v.height) {old : Nat} (h : InView v old) (hm : ¬ AtEdge v old)
    (hx : ∀ i, 0 < i → v.x i = 0) : v.top old = old := by
  have hv : v.vpos < v.count := by have := h.last; have := h.below; omega
  rcases offset_pos hp hr hh hv with ⟨h1, h2, h3⟩ | h5
  · have := (C46_in_view hp hr hh hv old).last
    have := h.last
    omega
  · exact top_stays hp h hm hx h5

/-- Nor is it scrolled further than needed: no other first row where the cursor is in view is nearer. -/
theorem C46_least {v : View} (hp : v.botlin = 0) (hv : v.vpos < v.count) (hx : ∀ i, 0 < i → v.x i = 0)
    (old t : Nat) (h : InView v t) (hm : ¬ AtEdge v t) : (old ≤ t → v.top old ≤ t ∧ old ≤ v.top old) ∧ (t ≤ old → t ≤ v.top old ∧ v.top old ≤ old) := by
  obtain ⟨k1, k2⟩ := keep_near hp hv old h
  obtain ⟨h1, h2, h3, h4⟩ := h
  have hi : indicator = 1 := rfl
  unfold AtEdge at hm
  unfold View.top
  simp only [Bool.and_eq_true, decide_eq_true_eq, beq_iff_eq, hp, Nat.zero_add] at hm ⊢
  by_cases c1 : 0 < v.keep old ∧ v.keep old = v.vpos
  · rw [if_pos c1]
    have e := hx _ c1.1
    rw [e]
    by_cases c2 : 0 ≤ v.cpos ∧ v.cpos < 0 + indicator
    · rw [if_pos c2]
      have : t ≠ v.vpos := fun ht => hm (.inl ⟨by omega, ht.symm, by rw [ht, ← c1.2, e]; omega⟩)
      omega
    · rw [if_neg c2]; exact ⟨fun a => (k1 a).symm, k2⟩
  · rw [if_neg c1]
    by_cases c2 : v.keep old + v.offset < v.count - 1 ∧ v.keep old + v.offset = v.vpos
    · rw [if_pos c2]
      by_cases c3 : v.width ≤ v.cpos + indicator ∧ v.cpos < v.width
      · rw [if_pos c3]
        have : t ≠ v.keep old := fun ht => hm (.inr ⟨by omega, by omega, by omega⟩)
        omega
      · rw [if_neg c3]; exact ⟨fun a => (k1 a).symm, k2⟩
    · rw [if_neg c2]; exact ⟨fun a => (k1 a).symm, k2⟩

/-- As many rows of the line are shown as there are and as are allowed. -/
theorem C46_amount {v : View} (hv : v.botlin < v.count) (hr : 0 < v.maxRows) (hh : 0 < v.height) : v.botlin + v.offset + 1 ≤ v.count ∧ v.offset + 1 ≤ v.maxRows ∧
    v.offset + 1 ≤ v.height ∧ (v.botlin + v.offset + 1 = v.count ∨ v.offset + 1 = v.maxRows ∨ v.offset + 1 = v.height) := by
  unfold View.offset
  omega

/-- If the last line of the prompt needs two rows, the cursor can get out of view: it goes up from the fourth row of the line to the
second, and what is shown starts at the third. -/
theorem C46_wrapped_out_of_view : ∃ v : View, v.botlin = 1 ∧ v.vpos < v.count ∧ 2 ≤ v.maxRows ∧ v.botlin + v.maxRows ≤ v.height ∧ InView v 3 ∧ v.vpos = 4 ∧
    v.top 0 = 3 ∧ { v with vpos := 2 }.top 3 = 3 ∧ ¬ InView { v with vpos := 2 } 3 :=
  ⟨⟨1, 2, 25, 80, 6, 4, 5, fun i => if i = 1 then 10 else 0⟩, by decide, by decide, by decide, by decide, ⟨by decide, by decide, by decide, by decide⟩, rfl, by decide,
    by decide, fun h => absurd h.above (by decide)⟩

/-- If it needs three rows, and the line needs two rows, a row of the prompt is shown instead of the second row of the line. -/
theorem C46_wrapped_shows_prompt : ∃ v : View, v.botlin = 2 ∧ v.vpos < v.count ∧ v.count = v.botlin + 2 ∧ 2 ≤ v.maxRows ∧ v.botlin + v.maxRows ≤ v.height ∧
    v.top 2 = 1 ∧ v.top 2 + v.offset < v.count - 1 :=
  ⟨⟨2, 10, 25, 80, 4, 2, 15, fun i => if i = 2 then 10 else 0⟩, by decide, by decide, by decide, by decide, by decide, by decide, by decide⟩

theorem noCtrl (h10 : env.wc 10 < 0) (h : Line env cs gs) (hn : ∀ g ∈ gs, 0 ≤ g.2) : NoCtrl gs := by
  have hg := h.glyphs
  clear h
  induction hg with
  | nil => intro g hg; simp at hg
  | @cons w rest n gs h1 _ ih =>
    intro g hg
    rcases List.mem_cons.1 hg with rfl | hg
    · refine ⟨hn _ (by simp), ?_⟩
      intro hw
      dsimp only at hw
      subst hw
      have h2 := hn ([10], n) (by simp)
      cases h1 with
      | ctrl => dsimp only at h2; omega
      | emoji _ hw => omega
      | plain hw => omega
    · exact ih (fun g hg => hn g (by simp [hg])) g hg

theorem translate_go {W cx row top bottom : Nat} (hrow : row ≤ bottom) (clip : Bool) (l : List Nat) :
    translate env W x bottom top l cx row clip = some (min (rowsDown W cx (row + top) x (chars env l)) l.length) := by
  unfold translate
  rw [if_neg (by rintro ⟨h, -⟩; omega), if_neg (by rintro ⟨h, -⟩; omega)]
  simp only
  rw [if_neg (by omega), if_neg (by omega)]
  simp

/-- A click on a cell of a character finds the character, if there are no control characters and the last line of the prompt is on one row. -/
theorem C47_click (hz : env.variant 0 = false) (h10 : env.wc 10 < 0) (h : Line env cs gs) (hn : ∀ g ∈ gs, 0 ≤ g.2) {W : Nat} {lf : Bool}
    (hw : ∀ q ∈ pieces lf 0 gs, q.width ≤ W) (hx : x ≤ W) (hr : Arranged W x (pieces lf 0 gs) rows)
    {A B : List (List Piece)} {a b : List Piece} {q : Piece} (hs : rows = A ++ (a ++ q :: b) :: B) {cx row top bottom : Nat} (hrow : row ≤ bottom) (hA : A.length = row + top)
    (h1 : startCol x A + width a ≤ cx) (h2 : cx < startCol x A + width a + q.width) (clip : Bool) :
    translate env W x bottom top (flat cs) cx row clip = some q.pos := by
  have hc := noCtrl h10 h hn
  have hnl := pieces_plain (lf := lf) (pos := 0) hc
  rw [translate_go hrow, chars_go hz h.glyphs h.text, ← hA]
  obtain ⟨g1, g2, k1, k2, k3⟩ := down_go (cx := cx) (lf := lf) (gs := gs) hr hw hx hnl hc A [] 0 gs (by simpa using hs) (fun _ h => h) (by simp)
    (by rw [← hs]; exact hr.all)
  have hc2 : NoCtrl g2 := fun y hy => hc y (by rw [k1]; simp [hy])
  obtain ⟨f1, f2, e1, e2, e3, e4⟩ := pieces_split (r := a) (rest := q :: b ++ B.flatten) hc2 (by rw [← k2]; simp)
  cases f2 with
  | nil => simp [pieces] at e3
  | cons y f2 =>
    have hy := hc2 y (by rw [e1]; simp)
    rw [pieces, shown_plain hy.1 hy.2] at e3
    simp at e3
    have hq := e3.1
    have hqw : q.width = y.2.toNat := by rw [hq]; rfl
    have hcon : (consume cx (startCol x ([] ++ A)) (g2.map toCh)).1 = size f1 := by
      rw [List.nil_append, e1, List.map_append, consume_all (fun g hg => (hc2 g (by rw [e1]; simp [hg])).1) (by rw [← e4]; exact h1), ← e4, List.map_cons,
        consume_stop hy.1 (by rw [← hqw]; exact h2)]
      rfl
    have hx0 : startCol x [] = x := rfl
    rw [hx0, hcon] at k3
    have e : (gs.map fun g => (⟨g.1.headD 0, flat g.1, g.2⟩ : Ch)) = gs.map toCh := rfl
    rw [e, k3]
    have hle : size g1 + size f1 ≤ (flat cs).length := by
      rw [← size_total h.glyphs, k1, e1]; simp [size]
    rw [Nat.min_eq_left hle, hq]

/-- A click behind a row finds where the next row starts, or the end of the line. -/
theorem C47_behind (hz : env.variant 0 = false) (h10 : env.wc 10 < 0) (h : Line env cs gs) (hn : ∀ g ∈ gs, 0 ≤ g.2) {W : Nat} {lf : Bool}
    (hw : ∀ q ∈ pieces lf 0 gs, q.width ≤ W) (hx : x ≤ W) (hr : Arranged W x (pieces lf 0 gs) rows)
    {A B : List (List Piece)} {r : List Piece} (hs : rows = A ++ r :: B) {cx row top bottom : Nat} (hrow : row ≤ bottom) (hA : A.length = row + top)
    (h1 : startCol x A + width r ≤ cx) (h2 : cx < W) (clip : Bool) :
    translate env W x bottom top (flat cs) cx row clip = some (startPos (flat cs).length B.flatten) := by
  have hc := noCtrl h10 h hn
  have hnl := pieces_plain (lf := lf) (pos := 0) hc
  rw [translate_go hrow, chars_go hz h.glyphs h.text, ← hA]
  obtain ⟨g1, g2, k1, k2, k3⟩ := down_go (cx := cx) (lf := lf) (gs := gs) hr hw hx hnl hc A [] 0 gs (by simpa using hs) (fun _ h => h) (by simp)
    (by rw [← hs]; exact hr.all)
  have hc2 : NoCtrl g2 := fun y hy => hc y (by rw [k1]; simp [hy])
  obtain ⟨f1, f2, e1, e2, e3, e4⟩ := pieces_split (r := r) (rest := B.flatten) hc2 (by rw [← k2]; simp)
  have htot : size g1 + size f1 + size f2 = (flat cs).length := by
    rw [← size_total h.glyphs, k1, e1]; simp [size]; omega
  have hstart : startPos (flat cs).length B.flatten = size g1 + size f1 := by
    rw [e3]
    have := startPos_pieces (su := ⟨0, 0, lf, id⟩) (total := (flat cs).length) (gs := f2) (pos := 0 + size g1 + size f1) (by
      intro hf; rw [hf] at htot; simp [size] at htot ⊢; omega)
    rw [this]; omega
  have hcon : (consume cx (startCol x ([] ++ A)) (g2.map toCh)).1 = size f1 := by
    rw [List.nil_append, e1, List.map_append, consume_all (fun g hg => (hc2 g (by rw [e1]; simp [hg])).1) (by rw [← e4]; exact h1), ← e4]
    cases f2 with
    | nil => rfl
    | cons y f2 =>
      have hlast := behind_row hr hnl hc (g2 := y :: f2) (fun z hz => by rw [k1, e1]; simp [List.mem_cons.1 hz]) hs e3 rfl
      rw [List.map_cons, consume_stop (hc2 y (by rw [e1]; simp)).1 (by omega)]
      rfl
  have hx0 : startCol x [] = x := rfl
  rw [hx0, hcon] at k3
  have e : (gs.map fun g => (⟨g.1.headD 0, flat g.1, g.2⟩ : Ch)) = gs.map toCh := rfl
  rw [e, k3, hstart, Nat.min_eq_left (by omega)]

/-- A click left of the line, on the prompt, finds the start of the line. -/
theorem C47_prompt {W cx bottom : Nat} (h : cx < x) (l : List Nat) (clip : Bool) : translate env W x bottom 0 l cx 0 clip = some 0 := by
  rw [show (0 : Int) = ((0 : Nat) : Int) from rfl, translate_go (Nat.zero_le bottom)]
  simp [rowsDown, consume_past h]

/-- Above and below the line there is nothing to click at, unless the place is moved to the first or last row. -/
theorem C47_outside {W cx bottom top : Nat} {row : Int} (h : row < 0 ∨ (bottom : Int) < row) (l : List Nat) :
    translate env W x bottom top l cx row false = none ∧
      translate env W x bottom top l cx row true = translate env W x bottom top l cx (if row < 0 then 0 else (bottom : Int)) false := by
  constructor
  · unfold translate
    rcases h with h | h
    · rw [if_pos ⟨h, rfl⟩]
    · by_cases h0 : row < 0
      · rw [if_pos ⟨h0, rfl⟩]
      · rw [if_neg (fun h => h0 h.1), if_pos ⟨h, rfl⟩]
  · by_cases h0 : row < 0
    · rw [if_pos h0, show (0 : Int) = ((0 : Nat) : Int) from rfl, translate_go (Nat.zero_le bottom)]
      unfold translate
      simp [h0]
    · have h1 : (bottom : Int) < row := by omega
      rw [if_neg h0, translate_go (Nat.le_refl bottom)]
      unfold translate
      simp [h0, h1]

/-! ### Examples -/

open Ellipsify (demo demo_plain demo_plain_wide plain_glyph)
open Ellipsify.Spec (Starts Extends Flag)
open Color (bs)

/-- Control characters, printable ASCII, some wide characters. -/
def Simple (c : Nat) : Prop := (0 < c ∧ c < 0x7f) ∨ (0x4e00 ≤ c ∧ c < 0xa000)

theorem demo_line (cs : List Nat) (h : ∀ c ∈ cs, Simple c) : Line demo cs (cs.map fun c => ([c], demo.wc c)) := by
  refine ⟨?_, ?_, ?_⟩
  · induction cs with
    | nil => exact .nil
    | cons c cs ih =>
      have hns : ¬ Starts (Extends demo) cs := by
        rintro ⟨z, hz, hx⟩
        have hm : z ∈ cs := List.mem_of_mem_head? hz
        rcases h z (by simp [hm]) with h1 | h1
        · rcases hx with hx | ⟨-, hx⟩
          · simp only [demo] at hx
            split at hx
            · omega
            · rw [if_neg (by simp; omega), if_neg (by simp; omega)] at hx; omega
          · simp [demo] at hx; omega
        · have hp := demo_plain_wide h1.1 h1.2
          have := hp.wide
          rcases hx with hx | ⟨-, hx⟩
          · omega
          · exact hp.variant hx
      refine .cons (w := [c]) ?_ (ih fun c hc => h c (by simp [hc]))
      rcases h c (by simp) with h1 | h1
      · by_cases h2 : c < 0x20
        · exact .ctrl (by simp [demo, h2])
        · exact plain_glyph (demo_plain (by omega) h1.2) hns
      · exact plain_glyph (demo_plain_wide h1.1 h1.2) hns
  · intro c hc
    rcases h c hc with h1 | h1 <;> exact ⟨by omega, by omega, by omega⟩
  · intro c hc hw
    rcases h c hc with h1 | h1
    · omega
    · exfalso
      have := (demo_plain_wide h1.1 h1.2).wide
      omega

/-- A line that fits on its first row. -/
theorem arranged_one {W : Nat} {ps : List Piece} (hn : ∀ q ∈ ps, q.newline = false) (hw : x + width ps < W) : Arranged W x ps [ps] := by
  have single : ∀ {A B : List (List Piece)} {r : List Piece}, [ps] = A ++ r :: B → A = [] ∧ r = ps ∧ B = [] := by
    intro A B r h
    cases A with
    | nil => simp at h; exact ⟨rfl, h.1.symm, h.2⟩
    | cons => simp at h
  refine ⟨by simp, ?_, ?_, ?_, ?_, by simp⟩
  · intro A a q b B h hq
    obtain ⟨-, h2, -⟩ := single h
    rw [hn q (by rw [← h2]; simp)] at hq
    cases hq
  · intro A a q b B h _ _
    obtain ⟨rfl, h2, -⟩ := single h
    rw [← h2] at hw
    simp [width, startCol] at hw ⊢
    omega
  · intro A r r' B h _
    obtain ⟨-, -, h3⟩ := single h
    cases h3
  · intro A r h _
    obtain ⟨rfl, h2, -⟩ := single h
    rw [h2]
    simpa [startCol] using hw

/-- A newline has no cell.  If a row is full and a newline follows, the cursor on the newline is behind the last column. -/
theorem C45_newline_off_screen : Line demo (bs "abc\nd") ((bs "abc\nd").map fun c => ([c], demo.wc c)) ∧
    (parse demo ⟨3, 3, true, fun _ => 48⟩ 0 0 (bs "abc\nd")).vpos = 0 ∧ (parse demo ⟨3, 3, true, fun _ => 48⟩ 0 0 (bs "abc\nd")).cpos = 3 :=
  ⟨demo_line _ (by simp only [Simple]; decide +kernel), by decide +kernel, by decide +kernel⟩

/-- Control characters that are not ASCII have two bytes, but are counted as one: the cursor is wrong behind them.  The line is U+0080 and
`a`, and the cursor is on the `a`. -/
theorem C45_other_control : ∃ cs gs rows, Glyphs demo cs gs ∧ flat cs = [0xc2, 0x80, 0x61] ∧ Arranged 10 0 (pieces true 0 gs) rows ∧
    ¬ Cursor 0 0 3 2 rows (parse demo ⟨10, 2, true, fun _ => 48⟩ 0 0 (flat cs)).vpos (parse demo ⟨10, 2, true, fun _ => 48⟩ 0 0 (flat cs)).cpos := by
  refine ⟨[0x80, 0x61], [([0x80], -1), ([0x61], 1)], _, ?_, by decide +kernel, arranged_one (by decide +kernel) (by decide +kernel), ?_⟩
  · refine .cons (w := [0x80]) (.ctrl (by decide)) (.cons (w := [0x61]) ?_ .nil)
    exact plain_glyph (demo_plain (by omega) (by omega)) (by simp [Starts])
  · intro h
    have := h.char [] [⟨0, 2, true, true, .cells [94] 1⟩, ⟨0, 2, false, true, .cells [63] 1⟩] ⟨2, 1, true, false, .cells [0x61] 1⟩ [] [] (by decide +kernel) rfl (by decide)
      (by decide)
    exact absurd this.2 (by decide +kernel)

/-- A click is wrong behind a newline: the second row starts with the byte at 2, but a click there gives 3. -/
theorem C47_newline_wrong : Line demo (bs "a\nb") ((bs "a\nb").map fun c => ([c], demo.wc c)) ∧
    (parse demo ⟨80, 0, true, fun _ => 48⟩ 0 0 (bs "a\nb")).all[1]? = some { text := [(98, 48)], start := 2, stop := 3, lastcol := 1 } ∧
    translate demo 80 0 1 0 (bs "a\nb") 0 1 false = some 3 :=
  ⟨demo_line _ (by simp only [Simple]; decide +kernel), by decide +kernel, by decide +kernel⟩

/-- A click is wrong behind a control character that is on two rows: `d`, the byte at 4, is in column 1, but a click there gives 3. -/
theorem C47_split_wrong : Line demo (bs "abc\x01d") ((bs "abc\x01d").map fun c => ([c], demo.wc c)) ∧
    (parse demo ⟨4, 4, true, fun _ => 48⟩ 0 0 (bs "abc\x01d")).vpos = 1 ∧ (parse demo ⟨4, 4, true, fun _ => 48⟩ 0 0 (bs "abc\x01d")).cpos = 1 ∧
    (parse demo ⟨4, 4, true, fun _ => 48⟩ 0 0 (bs "abc\x01d")).all.map (fun d => d.text.map (·.1)) = [bs "abc^", bs "Ad"] ∧
    translate demo 4 0 1 0 (bs "abc\x01d") 1 1 false = some 3 :=
  ⟨demo_line _ (by simp only [Simple]; decide +kernel), by decide +kernel, by decide +kernel, by decide +kernel, by decide +kernel⟩

/-- A click is wrong if the last line of the prompt needs two rows: it has 12 columns, so the line starts in column 2 of the next row of 10
columns, but a click there gives 2. -/
theorem C47_wrapped_wrong : (parse demo ⟨10, 0, true, fun _ => 48⟩ 1 2 (bs "abcde")).vpos = 1 ∧
    (parse demo ⟨10, 0, true, fun _ => 48⟩ 1 2 (bs "abcde")).cpos = 2 ∧ translate demo 10 12 1 0 (bs "abcde") 2 1 false = some 2 := by
  decide +kernel

/-- A line with a wide character for which there is no room, a control character, and a newline. -/
def demoLine : List Nat := [0x61, 0x62, 0x4e16, 1, 0x63, 0x64, 10, 0x65, 0x66]

def demoGlyphs : List (List Nat × Int) := demoLine.map fun c => ([c], demo.wc c)

theorem demoLine_ok : Line demo demoLine demoGlyphs := demo_line _ (by simp only [Simple]; decide +kernel)

def demoSetup (point : Nat) : Setup := ⟨5, point, true, fun i => 48 + i⟩

theorem demoPieces_ok : ∀ q ∈ pieces true 0 demoGlyphs, q.width ≤ 5 := by decide +kernel

example : ∃ rows, Arranged 5 2 (pieces true 0 demoGlyphs) rows := C45_arranged rfl (by decide) demoLine_ok 5 2 true

example {rows : List (List Piece)} (hr : Arranged 5 2 (pieces true 0 demoGlyphs) rows) :=
  C45_rows (su := demoSetup 5) (p := 1) rfl (by decide) demoLine_ok (by decide) demoPieces_ok hr

/- The rows: one for the prompt, `ab` and a space, `世^Ac`, `d` and the newline, `ef`. -/
example : (parse demo (demoSetup 6) 1 2 (flat demoLine)).all =
    [{}, { text := [(0x61, 48), (0x62, 49), (32, 48)], start := 0, stop := 2, x := 2, lastcol := 4, trail := 1 },
      { text := [(0xe4, 50), (0xb8, 51), (0x96, 52), (94, 53), (65, 53), (0x63, 54)], start := 2, stop := 7, lastcol := 5 },
      { text := [(0x64, 55)], start := 7, stop := 8, lastcol := 1, newline := true },
      { text := [(0x65, 57), (0x66, 58)], start := 9, stop := 11, lastcol := 2 }] := by decide +kernel

example : ((parse demo (demoSetup 3) 1 2 (flat demoLine)).vpos, (parse demo (demoSetup 3) 1 2 (flat demoLine)).cpos) = (2, 0) := by decide +kernel
example : ((parse demo (demoSetup 6) 1 2 (flat demoLine)).vpos, (parse demo (demoSetup 6) 1 2 (flat demoLine)).cpos) = (2, 4) := by decide +kernel
example : ((parse demo (demoSetup 11) 1 2 (flat demoLine)).vpos, (parse demo (demoSetup 11) 1 2 (flat demoLine)).cpos) = (4, 2) := by decide +kernel

example : (parse demo (demoSetup 5) 1 2 (flat demoLine)).cpos < 5 :=
  (C45_cursor_visible (su := demoSetup 5) (x := 2) (p := 1) rfl (by decide) demoLine_ok (by decide) demoPieces_ok (by decide +kernel) (by decide +kernel)).2.2

/- A control character on two rows; the second row has one cell of it. -/
example : (parse demo ⟨4, 0, true, fun _ => 48⟩ 0 0 (bs "abc\x01d")).all.map (·.lead) = [0, 1] := by decide +kernel

/- A line that fills a row: the cursor is on a row of its own. -/
example : (parse demo ⟨4, 4, true, fun _ => 48⟩ 0 1 (bs "abc")).all.map (·.lastcol) = [4, 0] := by decide +kernel

def demoView (vpos cpos : Nat) : View := ⟨0, 3, 25, 80, 8, vpos, cpos, fun i => if i = 0 then 10 else 0⟩

example : InView (demoView 5 20) ((demoView 5 20).top 0) := C46_in_view rfl (by decide) (by decide) (by decide) 0
example : (demoView 5 20).top 0 = 3 := by decide
example : (demoView 3 0).top 3 = 2 := by decide
example : (demoView 5 79).top 3 = 4 := by decide
example : ¬ AtEdge (demoView 5 79) ((demoView 5 79).top 3) :=
  C46_not_at_edge rfl (by decide) (by decide) (by decide) (fun i hi => if_neg (by omega)) (by decide) 3
example : (demoView 5 79).top 3 ≤ 5 ∧ 3 ≤ (demoView 5 79).top 3 :=
  (C46_least rfl (by decide) (fun i hi => if_neg (by omega)) 3 5 ⟨by decide, by decide, by decide, by decide⟩ (by unfold AtEdge; decide)).1 (by decide)
example : (demoView 4 79).top 3 = 3 :=
  C46_stays rfl (by decide) (by decide) ⟨by decide, by decide, by decide, by decide⟩ (by unfold AtEdge; decide) (fun i hi => if_neg (by omega))

/- `世` on the second row is the byte at 2; a click behind `ab` finds it too. -/
example {rows : List (List Piece)} (hr : Arranged 5 2 (pieces true 0 ([0x61, 0x62, 0x4e16, 0x63].map fun c => ([c], demo.wc c))) rows) {A B : List (List Piece)} {a b : List Piece} {q : Piece}
    (hs : rows = A ++ (a ++ q :: b) :: B) (hA : A.length = 1) (h1 : startCol 2 A + width a ≤ 1) (h2 : 1 < startCol 2 A + width a + q.width) :
    translate demo 5 2 1 0 (flat [0x61, 0x62, 0x4e16, 0x63]) 1 1 false = some q.pos :=
  C47_click (row := 1) rfl (by decide) (demo_line _ (by simp only [Simple]; decide +kernel)) (by decide +kernel) (by decide +kernel) (by decide) hr hs (by decide) hA h1 h2 false
example : translate demo 5 2 1 0 (flat [0x61, 0x62, 0x4e16, 0x63]) 1 1 false = some 2 := by decide +kernel
example : translate demo 5 2 1 0 (flat [0x61, 0x62, 0x4e16, 0x63]) 2 1 false = some 5 := by decide +kernel
example : translate demo 5 2 1 0 (flat [0x61, 0x62, 0x4e16, 0x63]) 4 0 false = some 2 := by decide +kernel
example : translate demo 5 2 1 0 (flat [0x61, 0x62, 0x4e16, 0x63]) 4 1 false = some 6 := by decide +kernel
example : translate demo 5 2 1 0 (flat [0x61, 0x62, 0x4e16, 0x63]) 3 2 false = none := (C47_outside (.inr (by decide)) _).1

end Clink.Display
