import Verif.Proof.DisplayLine

/-!
Scrolling, and mouse clicks.
-/

namespace Clink.Display

open Doskey (peek next between)
open Doskey.Spec (flat)
open Utf (IsText)
open Ellipsify (Env oneRun)
open Ellipsify.Spec (Glyph Glyphs)
open Spec

/-! ### Scrolling -/

theorem keep_view {v : View} (hp : v.botlin = 0) (hv : v.vpos < v.count) (old : Nat) : InView v (v.keep old) := by
  have ho : v.offset ≤ v.count - 1 - v.botlin := by unfold View.offset; omega
  unfold View.keep
  rw [hp] at ho ⊢
  simp only [Nat.zero_add]
  constructor <;> repeat' split
  all_goals omega

theorem keep_near {v : View} (hp : v.botlin = 0) (hv : v.vpos < v.count) (old : Nat) {t : Nat} (h : InView v t) :
    (old ≤ t → old ≤ v.keep old ∧ v.keep old ≤ t) ∧ (t ≤ old → t ≤ v.keep old ∧ v.keep old ≤ old) := by
  have ho : v.offset ≤ v.count - 1 - v.botlin := by unfold View.offset; omega
  obtain ⟨h1, h2, h3, h4⟩ := h
  unfold View.keep
  rw [hp] at ho ⊢
  simp only [Nat.zero_add]
  repeat' split
  all_goals omega

theorem top_view {v : View} (hp : v.botlin = 0) (hv : v.vpos < v.count) (ho : 0 < v.offset) (old : Nat) : InView v (v.top old) := by
  obtain ⟨h1, h2, h3, h4⟩ := keep_view hp hv old
  unfold View.top
  simp only [Bool.and_eq_true, decide_eq_true_eq, beq_iff_eq, hp, Nat.zero_add] at h1 h2 h3 h4 ⊢
  split
  · split
    · constructor <;> omega
    · constructor <;> omega
  · split
    · split
      · constructor <;> omega
      · constructor <;> omega
    · constructor <;> omega

theorem top_mark {v : View} (hp : v.botlin = 0) (hv : v.vpos < v.count) (ho : 0 < v.offset) (hx : ∀ i, 0 < i → v.x i = 0) (hw : 2 ≤ v.width) (old : Nat) :
    ¬ AtEdge v (v.top old) := by
  obtain ⟨h1, h2, h3, h4⟩ := keep_view hp hv old
  have hx0 : ∀ i, 0 < i → v.x i = 0 := hx
  have hi : indicator = 1 := rfl
  unfold AtEdge View.top
  simp only [Bool.and_eq_true, decide_eq_true_eq, beq_iff_eq, hp, Nat.zero_add] at h1 h2 h3 h4 ⊢
  by_cases c1 : 0 < v.keep old ∧ v.keep old = v.vpos
  · rw [if_pos c1]
    have e := hx0 _ c1.1
    rw [e]
    by_cases c2 : 0 ≤ v.cpos ∧ v.cpos < 0 + indicator
    · rw [if_pos c2]
      rintro (⟨a, b, c⟩ | ⟨a, b, c⟩) <;> omega
    · rw [if_neg c2, e]
      rintro (⟨a, b, c⟩ | ⟨a, b, c⟩) <;> omega
  · rw [if_neg c1]
    by_cases c2 : v.keep old + v.offset < v.count - 1 ∧ v.keep old + v.offset = v.vpos
    · rw [if_pos c2]
      by_cases c3 : v.width ≤ v.cpos + indicator ∧ v.cpos < v.width
      · rw [if_pos c3, hx0 _ (by omega)]
        rintro (⟨a, b, c⟩ | ⟨a, b, c⟩) <;> omega
      · rw [if_neg c3]
        rintro (⟨a, b, c⟩ | ⟨a, b, c⟩)
        · omega
        · omega
    · rw [if_neg c2]
      rintro (⟨a, b, c⟩ | ⟨a, b, c⟩)
      · omega
      · omega

theorem top_stays {v : View} (hp : v.botlin = 0) {old : Nat} (h : InView v old) (hm : ¬ AtEdge v old) (hx : ∀ i, 0 < i → v.x i = 0) (ho : 0 < v.offset) :
    v.top old = old := by
  obtain ⟨h1, h2, h3, h4⟩ := h
  have e : v.keep old = old := by
    unfold View.keep
    rw [hp]
    simp only [Nat.zero_add]
    repeat' split
    all_goals omega
  unfold View.top
  unfold AtEdge at hm
  have hi : indicator = 1 := rfl
  simp only [Bool.and_eq_true, decide_eq_true_eq, beq_iff_eq, hp, Nat.zero_add, e] at h1 h2 h3 h4 hm ⊢
  split
  · rename_i c
    rw [if_neg]
    intro c2
    rw [hx old c.1] at hm c2
    exact hm (.inl ⟨c.1, c.2.symm, by omega⟩)
  · split
    · rename_i c
      rw [if_neg]
      intro c2
      exact hm (.inr ⟨by omega, c.2.symm, by omega⟩)
    · rfl

/-! ### Clicks -/

def toCh (g : List Nat × Int) : Ch := ⟨g.1.headD 0, flat g.1, g.2⟩

def size (gs : List (List Nat × Int)) : Nat := (gs.map fun g => (flat g.1).length).sum

def NoCtrl (gs : List (List Nat × Int)) : Prop := ∀ g ∈ gs, 0 ≤ g.2 ∧ g.1 ≠ [10]

theorem shown_plain {lf : Bool} {pos : Nat} {w : List Nat} {n : Int} (h0 : 0 ≤ n) (h1 : w ≠ [10]) :
    shown lf pos w n = [⟨pos, (flat w).length, true, false, .cells (flat w) n.toNat⟩] := by
  unfold shown
  rw [if_neg (fun h => h1 h.2), if_neg (by omega)]

theorem pieces_split {lf : Bool} : ∀ {gs : List (List Nat × Int)} {pos : Nat} {r rest : List Piece}, NoCtrl gs → pieces lf pos gs = r ++ rest →
    ∃ g1 g2, gs = g1 ++ g2 ∧ r = pieces lf pos g1 ∧ rest = pieces lf (pos + size g1) g2 ∧ width r = (g1.map fun g => g.2.toNat).sum
  | gs, pos, [], rest, _, h => ⟨[], gs, rfl, rfl, by simpa [size] using h.symm, rfl⟩
  | [], pos, q :: r, rest, _, h => by simp [pieces] at h
  | (w, n) :: gs, pos, q :: r, rest, hn, h => by
    have hg := hn (w, n) (by simp)
    rw [pieces, shown_plain hg.1 hg.2] at h
    simp at h
    obtain ⟨h1, h2⟩ := h
    obtain ⟨g1, g2, k1, k2, k3, k4⟩ := pieces_split (fun g hm => hn g (by simp [hm])) h2
    refine ⟨(w, n) :: g1, g2, by rw [k1]; rfl, ?_, ?_, ?_⟩
    · rw [pieces, shown_plain hg.1 hg.2, ← k2, h1]; rfl
    · rw [k3]; congr 1; simp [size]; omega
    · show (((q :: r).map Piece.width).sum) = _
      simp only [List.map_cons, List.sum_cons]
      have : (r.map Piece.width).sum = width r := rfl
      rw [this, k4, ← h1]; rfl

theorem consume_cons {target c : Nat} {ch : Ch} {l : List Ch} (h : 0 ≤ ch.w) : consume target c (ch :: l) =
    if target < c + ch.w.toNat then (0, ch :: l)
    else (ch.bytes.length + (consume target (c + ch.w.toNat) l).1, (consume target (c + ch.w.toNat) l).2) := by
  rw [consume]
  simp only
  rw [if_neg (by omega : ¬ ch.w < 0)]

theorem consume_all {target : Nat} : ∀ {g1 : List (List Nat × Int)} {c : Nat} {l : List Ch}, (∀ g ∈ g1, 0 ≤ g.2) → c + (g1.map fun g => g.2.toNat).sum ≤ target →
    consume target c (g1.map toCh ++ l) = (size g1 + (consume target (c + (g1.map fun g => g.2.toNat).sum) l).1,
      (consume target (c + (g1.map fun g => g.2.toNat).sum) l).2)
  | [], c, l, _, _ => by simp [size]
  | g :: g1, c, l, h, ht => by
    have h0 := h g (by simp)
    simp only [List.map_cons, List.sum_cons] at ht ⊢
    have ih := consume_all (target := target) (g1 := g1) (c := c + g.2.toNat) (l := l) (fun g hg => h g (by simp [hg])) (by omega)
    rw [List.cons_append, consume_cons (ch := toCh g) h0, if_neg (by show ¬ target < c + g.2.toNat; omega)]
    show ((flat g.1).length + (consume target (c + g.2.toNat) (g1.map toCh ++ l)).1, (consume target (c + g.2.toNat) (g1.map toCh ++ l)).2) = _
    rw [ih]
    simp only [size, List.map_cons, List.sum_cons, Nat.add_assoc]

theorem consume_stop {target c : Nat} {g : List Nat × Int} {l : List Ch} (h0 : 0 ≤ g.2) (h : target < c + g.2.toNat) :
    consume target c (toCh g :: l) = (0, toCh g :: l) := by
  rw [consume_cons (ch := toCh g) h0]; exact if_pos h

theorem consume_past {target c : Nat} (h : target < c) (l : List Ch) : (consume target c l).1 = 0 := by
  cases l with
  | nil => rfl
  | cons ch l =>
    rw [consume]
    simp only
    rw [if_pos (by omega)]

theorem pieces_plain {lf : Bool} : ∀ {gs : List (List Nat × Int)} {pos : Nat}, NoCtrl gs → ∀ q ∈ pieces lf pos gs, q.newline = false
  | [], _, _ => by simp [pieces]
  | (w, n) :: gs, pos, h => by
    have hg := h (w, n) (by simp)
    intro q hq
    rw [pieces, shown_plain hg.1 hg.2] at hq
    simp at hq
    rcases hq with hq | hq
    · rw [hq]; rfl
    · exact pieces_plain (fun g hm => h g (by simp [hm])) q hq

theorem row_fits {W x : Nat} {ps : List Piece} {rows : List (List Piece)} (h : Arranged W x ps rows) (hw : ∀ q ∈ ps, q.width ≤ W) (hx : x ≤ W) {A B : List (List Piece)}
    {r : List Piece} (hr : rows = A ++ r :: B) : startCol x A + width r ≤ W := by
  rcases List.eq_nil_or_concat r with h0 | ⟨a, q, h0⟩
  · rw [h0]; unfold startCol; simp [width]; split <;> omega
  · rw [List.concat_eq_append] at h0
    rw [h0, width_append, width_one]
    have hq : q ∈ ps := by rw [← h.all, hr, h0]; simp
    by_cases hA : A = [] ∨ a ≠ []
    · cases hn : q.newline with
      | false =>
        have := h.fits A a q [] B (by rw [hr, h0]) hn hA
        omega
      | true =>
        have hw0 : q.width = 0 := by
          unfold Piece.newline at hn; unfold Piece.width
          have : q.part = .newline := by simpa using hn
          rw [this]
        rcases List.eq_nil_or_concat a with h1 | ⟨a', q', h1⟩
        · rw [h1, hw0]; unfold startCol; simp [width]; split <;> omega
        · rw [List.concat_eq_append] at h1
          have hn' : q'.newline = false := by
            cases hn' : q'.newline with
            | false => rfl
            | true =>
              have := h.newline A a' q' [q] B (by rw [hr, h0, h1]; simp) hn'
              simp at this
          by_cases hA' : A = [] ∨ a' ≠ []
          · have := h.fits A a' q' [q] B (by rw [hr, h0, h1]; simp) hn' hA'
            rw [h1, width_append, width_one]; omega
          · have hA1 : A ≠ [] := fun h => hA' (.inl h)
            have ha' : a' = [] := by
              by_cases ha : a' = []
              · exact ha
              · exact absurd (.inr ha) hA'
            have := hw q' (by rw [← h.all, hr, h0, h1]; simp)
            rw [h1, ha', hw0]
            simp [startCol, hA1, width]; omega
    · have hA1 : A ≠ [] := fun h => hA (.inl h)
      have ha : a = [] := by
        by_cases ha : a = []
        · exact ha
        · exact absurd (.inr ha) hA
      rw [ha]
      have := hw q hq
      simp [startCol, hA1, width]; omega

/-- What comes behind a row. -/
theorem behind_row {W x : Nat} {lf : Bool} {gs g2 : List (List Nat × Int)} {pos : Nat} {ps : List Piece} {rows : List (List Piece)} (h : Arranged W x ps rows)
    (hn : ∀ q ∈ ps, q.newline = false) (hc : NoCtrl gs) (hg : ∀ g ∈ g2, g ∈ gs) {A B : List (List Piece)} {r : List Piece} (hr : rows = A ++ r :: B)
    (hB : B.flatten = pieces lf pos g2) {g : List Nat × Int} {g3 : List (List Nat × Int)} (h2 : g2 = g :: g3) : W < startCol x A + width r + g.2.toNat := by
  subst h2
  have hg0 := hc g (hg g (by simp))
  rw [pieces, shown_plain hg0.1 hg0.2] at hB
  cases B with
  | nil => simp at hB
  | cons r' B' =>
    have he : ¬ Ends r := not_ends fun q hq => hn q (by rw [← h.all, hr]; simp [hq])
    rcases h.needed A r r' B' hr he with ⟨q, t, h1, -, h3⟩ | ⟨h1, h2, -⟩
    · rw [h1] at hB
      simp at hB
      rw [hB.1] at h3
      exact h3
    · rw [h1, h2] at hB; simp at hB

theorem down_go {W x cx : Nat} {lf : Bool} {gs : List (List Nat × Int)} {ps : List Piece} {rows : List (List Piece)} (h : Arranged W x ps rows)
    (hw : ∀ q ∈ ps, q.width ≤ W) (hx : x ≤ W) (hn : ∀ q ∈ ps, q.newline = false) (hc : NoCtrl gs) {R : List (List Piece)} :
    ∀ (A A0 : List (List Piece)) (pos : Nat) (g : List (List Nat × Int)), rows = A0 ++ A ++ R → (∀ y ∈ g, y ∈ gs) → R ≠ [] →
    (A ++ R).flatten = pieces lf pos g →
    ∃ g1 g2, g = g1 ++ g2 ∧ R.flatten = pieces lf (pos + size g1) g2 ∧
      rowsDown W cx A.length (startCol x A0) (g.map toCh) = size g1 + (consume cx (startCol x (A0 ++ A)) (g2.map toCh)).1
  | [], A0, pos, g, hr, hg, hR, hp => ⟨[], g, rfl, by simpa [size] using hp, by simp [rowsDown, size]⟩
  | r :: A, A0, pos, g, hr, hg, hR, hp => by
    have hc' : NoCtrl g := fun y hy => hc y (hg y hy)
    obtain ⟨g1, g2, k1, k2, k3, k4⟩ := pieces_split (r := r) (rest := (A ++ R).flatten) hc' (by rw [← hp]; simp)
    obtain ⟨f1, f2, e1, e2, e3⟩ := down_go h hw hx hn hc A (A0 ++ [r]) (pos + size g1) g2 (by rw [hr]; simp) (fun y hy => hg y (by rw [k1]; simp [hy])) hR k3
    have hr' : rows = A0 ++ r :: (A ++ R) := by rw [hr]; simp
    have hfit := row_fits h hw hx hr'
    refine ⟨g1 ++ f1, f2, by rw [k1, e1]; simp, ?_, ?_⟩
    · rw [e2]; congr 1; simp [size]; omega
    · have hcon : consume W (startCol x A0) (g.map toCh) = (size g1, g2.map toCh) := by
        rw [k1, List.map_append, consume_all (fun y hy => (hc y (hg y (by rw [k1]; simp [hy]))).1) (by rw [← k4]; exact hfit), ← k4]
        have : consume W (startCol x A0 + width r) (g2.map toCh) = (0, g2.map toCh) := by
          cases g2 with
          | nil => rfl
          | cons y g3 =>
            have hy : y ∈ gs := hg y (by rw [k1]; simp)
            have := behind_row h hn hc (fun y hy => hg y (by rw [k1]; simp [hy])) hr' k3 rfl
            rw [List.map_cons, consume_stop (hc y hy).1 this]
        rw [this]; simp
      rw [List.length_cons, rowsDown, hcon]
      simp only
      rw [startCol_snoc] at e3
      rw [e3]
      simp [size]; omega

theorem size_le {gs g1 g2 : List (List Nat × Int)} (h : gs = g1 ++ g2) : size g1 ≤ size gs := by rw [h]; simp [size]

theorem size_total {gs : List (List Nat × Int)} {cs : List Nat} {env : Env} (h : Glyphs env cs gs) : size gs = (flat cs).length := by
  induction h with
  | nil => rfl
  | cons _ _ ih => rw [Ecma48.flat_append, List.length_append, ← ih]; simp [size]

end Clink.Display
