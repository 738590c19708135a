import Verif.Proof.RedrawDraw
import Verif.Proof.DisplayClick

/-!
The rows of a line without control characters can be redrawn.
-/

namespace Clink.Redraw

open Doskey.Spec (flat)
open Ellipsify (Env)
open Ellipsify.Spec (Glyph Glyphs Plain Flag Starts)
open Display (Row Ch chars size)
open Display.Spec
open Utf (specUtf8 IsText)
open Spec

variable {env : Env}

theorem pieces_cut {lf : Bool} : ∀ {gs : List (List Nat × Int)} {pos : Nat} {r rest : List Piece}, Wide lf gs → pieces lf pos gs = r ++ rest →
    ∃ g1 g2, gs = g1 ++ g2 ∧ r = pieces lf pos g1 ∧ rest = pieces lf (pos + size g1) g2
  | gs, pos, [], rest, _, h => ⟨[], gs, rfl, rfl, by simpa [size] using h.symm⟩
  | [], pos, q :: r, rest, _, h => by simp [pieces] at h
  | (w, n) :: gs, pos, q :: r, rest, hn, h => by
    obtain ⟨q', hq⟩ : ∃ q', shown lf pos w n = [q'] := by
      unfold shown
      rcases hn (w, n) (by simp) with hg | hg
      · rw [if_neg (fun h => hg.2 h.2), if_neg (by have := hg.1; dsimp only at this; omega)]; exact ⟨_, rfl⟩
      · rw [if_pos hg]; exact ⟨_, rfl⟩
    rw [pieces, hq] at h
    simp at h
    obtain ⟨h1, h2⟩ := h
    obtain ⟨g1, g2, k1, k2, k3⟩ := pieces_cut (fun g hm => hn g (by simp [hm])) h2
    refine ⟨(w, n) :: g1, g2, by rw [k1]; rfl, ?_, ?_⟩
    · rw [pieces, hq, ← k2, h1]; rfl
    · rw [k3]; congr 1; simp [size]; omega

theorem pieces_bytes {lf : Bool} (face : Nat → Nat) : ∀ (gs : List (List Nat × Int)) (pos : Nat), (∀ g ∈ gs, 0 < g.2 ∧ g.1 ≠ [10]) →
    bytes (((pieces lf pos gs).map (Piece.faced face)).flatten) = flat ((gs.map (·.1)).flatten) ∧ width (pieces lf pos gs) = (gs.map fun g => g.2.toNat).sum
  | [], pos, _ => ⟨rfl, rfl⟩
  | (w, n) :: gs, pos, h => by
    obtain ⟨h1, h2⟩ := h (w, n) (by simp)
    obtain ⟨i1, i2⟩ := pieces_bytes (lf := lf) face gs (pos + (flat w).length) fun g hg => h g (by simp [hg])
    rw [pieces, Display.shown_plain (by dsimp only at h1; omega) h2]
    refine ⟨?_, ?_⟩
    · simp only [List.singleton_append, List.map_cons, List.flatten_cons, bytes_append, i1, Ecma48.flat_append]
      congr 1
      simp only [Piece.faced, Piece.bytes, Bool.false_eq_true, if_false, bytes, List.map_map]
      have : ((fun x : Nat × Nat => x.1) ∘ fun x : Nat × Nat => (x.1, face (pos + x.2))) = fun x => x.1 := rfl
      rw [this]
      exact List.zipIdx_map_fst 0 (flat w)
    · show (_ :: pieces lf (pos + (flat w).length) gs |>.map Piece.width).sum = _
      simp only [List.map_cons, List.sum_cons]
      rw [← i2]
      rfl

theorem split_cols (ws : List (List Nat × Int)) (t : Text) : cols (split ws t) = (ws.map fun g => g.2.toNat).sum := by
  induction ws generalizing t with
  | nil => rfl
  | cons g ws ih =>
    obtain ⟨w, n⟩ := g
    have := ih (t.drop (flat w).length)
    simp only [cols] at this
    simp only [split, cols, List.map_cons, List.sum_cons]
    rw [this]

theorem split_mem {ws : List (List Nat × Int)} {t : Text} {g : Text × Int} (h : g ∈ split ws t) : ∃ w, (w, g.2) ∈ ws := by
  induction ws generalizing t with
  | nil => simp [split] at h
  | cons x ws ih =>
    obtain ⟨w, n⟩ := x
    simp only [split, List.mem_cons] at h
    rcases h with rfl | h
    · exact ⟨w, by simp⟩
    · obtain ⟨w', hw'⟩ := ih h
      exact ⟨w', by simp [hw']⟩

theorem pieces_newline {lf : Bool} (l1 : lf = true) {y : List Nat × Int} (l2 : y.1 = [10]) (b : List (List Nat × Int)) : ∀ (a : List (List Nat × Int)) (pos : Nat),
    pieces lf pos (a ++ y :: b) = pieces lf pos a ++ ⟨pos + size a, 1, true, false, .newline⟩ :: pieces lf (pos + size a + (flat y.1).length) b
  | [], pos => by
    obtain ⟨w, n⟩ := y
    dsimp only at l2
    subst l2
    simp only [List.nil_append, pieces, shown, size, List.map_nil, List.sum_nil, Nat.add_zero]
    rw [if_pos ⟨l1, trivial⟩]
    rfl
  | (w, n) :: a, pos => by
    rw [List.cons_append, pieces, pieces, pieces_newline l1 l2 b a, List.append_assoc]
    simp only [size, List.map_cons, List.sum_cons, Nat.add_assoc]

/-- The characters of a row. -/
theorem row_glyphs {W x : Nat} {lf : Bool} {cs : List Nat} {gs : List (List Nat × Int)} {rows : List (List Piece)} (h : Glyphs env cs gs) (hg : Wide lf gs)
    (hr : Arranged W x (pieces lf 0 gs) rows) {A B : List (List Piece)} {r : List Piece} (hs : rows = A ++ r :: B) (face : Nat → Nat) :
    ∃ cr gr, Glyphs env cr gr ∧ (∀ c ∈ cr, c ∈ cs) ∧ (∀ g ∈ gr, 0 < g.2 ∧ g.1 ≠ [10]) ∧ bytes ((r.map (Piece.faced face)).flatten) = flat cr ∧
      width r = (gr.map fun g => g.2.toNat).sum := by
  have hall := hr.all
  rw [hs] at hall
  simp only [List.flatten_append, List.flatten_cons] at hall
  obtain ⟨gA, g', e1, e2, e3⟩ := pieces_cut hg hall.symm
  subst e1
  obtain ⟨gr, gB, e4, e5, e6⟩ := pieces_cut (fun g hm => hg g (by simp [hm])) e3.symm
  subst e4
  obtain ⟨cA, c', f1, f2, f3⟩ := glyphs_cut gA h
  obtain ⟨cr, cB, f4, f5, f6⟩ := glyphs_cut gr f3
  have hmem : ∀ c ∈ cr, c ∈ cs := fun c hc => by rw [f1, f4]; simp [hc]
  by_cases hnl : ∀ g ∈ gr, 0 < g.2 ∧ g.1 ≠ [10]
  · obtain ⟨b1, b2⟩ := pieces_bytes (lf := lf) face gr (0 + size gA) hnl
    exact ⟨cr, gr, f5, hmem, hnl, by rw [e5, b1, Ellipsify.glyphs_text f5], by rw [e5, b2]⟩
  · obtain ⟨y, hy, hy2⟩ : ∃ y ∈ gr, ¬ (0 < y.2 ∧ y.1 ≠ [10]) := by
      apply Classical.byContradiction
      intro hno
      apply hnl
      intro g hgm
      apply Classical.byContradiction
      intro hc
      exact hno ⟨g, hgm, hc⟩
    have isnl : ∀ y ∈ gr, ¬ (0 < y.2 ∧ y.1 ≠ [10]) → lf = true ∧ y.1 = [10] := fun y hy hy2 =>
      (hg y (by simp [hy])).resolve_left hy2
    have last : ∀ a y b, gr = a ++ y :: b → ¬ (0 < y.2 ∧ y.1 ≠ [10]) → b = [] := by
      intro a y b hab hy2
      obtain ⟨l1, l2⟩ := isnl y (by rw [hab]; simp) hy2
      have hp := pieces_newline l1 l2 b a (0 + size gA)
      rw [← hab] at hp
      have := (hr.newline A _ _ _ B (by rw [hs, e5, hp]) rfl).1
      cases b with
      | nil => rfl
      | cons z b =>
        obtain ⟨w, n⟩ := z
        rw [pieces] at this
        exfalso
        have h0 : shown lf (0 + size gA + size a + (flat y.1).length) w n = [] := (List.append_eq_nil_iff.1 this).1
        unfold shown at h0
        split at h0
        · simp at h0
        · split at h0 <;> simp at h0
    obtain ⟨a, b, hab⟩ := List.append_of_mem hy
    have hb := last a y b hab hy2
    subst hb
    have ha : ∀ g ∈ a, 0 < g.2 ∧ g.1 ≠ [10] := by
      intro g hgm
      apply Classical.byContradiction
      intro hc
      obtain ⟨a1, a2, haa⟩ := List.append_of_mem hgm
      have := last a1 g (a2 ++ [y]) (by rw [hab, haa]; simp) hc
      simp at this
    obtain ⟨l1, l2⟩ := isnl y hy hy2
    subst hab
    obtain ⟨ca, cn, q1, q2, q3⟩ := glyphs_cut a f5
    obtain ⟨b1, b2⟩ := pieces_bytes (lf := lf) face a (0 + size gA) ha
    have hp := pieces_newline l1 l2 [] a (0 + size gA)
    refine ⟨ca, a, q2, fun c hc => hmem c (by rw [q1]; simp [hc]), ha, ?_, ?_⟩
    · rw [e5, hp, List.map_append, List.flatten_append, bytes_append, b1, Ellipsify.glyphs_text q2]
      simp [Piece.faced, Piece.bytes, bytes, pieces]
    · rw [e5, hp, ← b2]
      simp [width, Piece.width, pieces]

theorem sequence_newline (hn : Newline env) {w rest : List Nat} (h : Ellipsify.Spec.Sequence env w rest) : 10 ∉ w := by
  induction h with
  | stop => simp
  | @selector c w rest h1 _ ih =>
    intro hm
    rcases List.mem_cons.1 hm with hm | hm
    · rw [← hm] at h1; exact hn.variant h1
    · exact ih hm
  | @joined c w rest _ h1 _ ih =>
    intro hm
    simp only [List.mem_cons] at hm
    rcases hm with hm | hm | hm
    · omega
    · rw [← hm] at h1
      rcases h1 with h | h | h | h
      · exact hn.emoji h
      · exact hn.unq h
      · omega
      · omega
    · exact ih hm
  | joiner => simp

theorem glyph_newline (hn : Newline env) {w rest : List Nat} {n : Int} (h : Glyph env w rest n) (hm : 10 ∈ w) : w = [10] := by
  have := hn.ctrl
  cases h with
  | ctrl => simp at hm; rw [hm]
  | flags _ _ h3 h4 =>
    simp at hm
    rcases hm with rfl | rfl
    · unfold Flag at h3; omega
    · unfold Flag at h4; omega
  | emoji _ h2 _ _ h5 =>
    rcases List.mem_cons.1 hm with rfl | hm
    · omega
    · exact absurd hm (sequence_newline hn h5)
  | plain h1 _ h3 =>
    rcases List.mem_cons.1 hm with rfl | hm
    · omega
    · rcases h3 10 hm with h | h
      · omega
      · exact absurd h.2 hn.variant

/-- The rows of a line can be redrawn. -/
theorem row_fits (ha : Ascii env) {W x total : Nat} {lf : Bool} {cs : List Nat} {gs : List (List Nat × Int)} {rows : List (List Piece)} (h : Line env cs gs)
    (hc : ∀ c ∈ cs, c ≠ 10 → 0x20 ≤ c ∧ c ≠ 0x7f) (hg : Wide lf gs) (hx : x ≤ W) (hw : ∀ q ∈ pieces lf 0 gs, q.width ≤ W)
    (hr : Arranged W x (pieces lf 0 gs) rows) {A B : List (List Piece)} {r : List Piece} (hs : rows = A ++ r :: B) {face : Nat → Nat} {d : Row}
    (hd : Holds W x total face A r B d) (hn : Newline env) : Fits env W d := by
  obtain ⟨cr, gr, g1, g2, g3, g4, g5⟩ := row_glyphs h.glyphs hg hr hs face
  have hno : ∀ c ∈ cr, c ≠ 10 := by
    intro c hcr h10c
    subst h10c
    rw [← Ellipsify.glyphs_text g1] at hcr
    obtain ⟨w, hw1, hw2⟩ := List.mem_flatten.1 hcr
    obtain ⟨g, hg1, hg2⟩ := List.mem_map.1 hw1
    obtain ⟨rest, n, hgl⟩ : ∃ rest n, Glyph env g.1 rest n := by
      clear g2 g3 g4 g5 hcr
      induction g1 with
      | nil => simp at hg1
      | @cons w' rest n gs' k1 k2 ih =>
        rcases List.mem_cons.1 hg1 with rfl | hg1
        · exact ⟨_, _, k1⟩
        · exact ih (List.mem_map.2 ⟨g, hg1, hg2⟩) hg1
    rw [← hg2] at hw2
    exact (g3 g hg1).2 (glyph_newline hn hgl hw2)
  have hs1 : Seen env ((r.map (Piece.faced face)).flatten) (split gr ((r.map (Piece.faced face)).flatten)) :=
    ⟨cr, gr, g4, fun c hcr => ⟨h.text c (g2 c hcr), hc c (g2 c hcr) (hno c hcr)⟩, g1, rfl⟩
  have hs2 := seen_append ha hs1 (seen_spaces ha d.trail) (by
    intro p hp
    have := List.mem_of_head? hp
    rw [(List.mem_replicate.1 this).2]; omega)
  have hfit := Display.row_fits hr hw hx hs
  have hlast := hd.lastcol
  refine ⟨⟨_, ⟨_, by rw [hd.text]; exact hs2, ?_, rfl⟩, ?_⟩, ⟨_, hd.text⟩, ?_⟩
  · intro g hgm
    rcases List.mem_append.1 hgm with hgm | hgm
    · obtain ⟨w, hw⟩ := split_mem hgm
      exact (g3 _ hw).1
    · rw [(List.mem_replicate.1 hgm).2]; omega
  · show d.x + (cellsOf _).length = _
    rw [cellsOf_length, cols_append, split_cols, hd.left, hlast, g5]
    have : cols (List.replicate d.trail ([(32, 48)], 1)) = d.trail := by simp [cols]
    omega
  · by_cases hB : B = [] ∨ Display.Spec.Ends r
    · rw [hd.trail.1 hB]; omega
    · rw [hd.trail.2 (fun h => hB (.inl h)) (fun h => hB (.inr h))]; omega

end Clink.Redraw
