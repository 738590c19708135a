import Verif.Spec.Display
import Verif.Proof.Glyph

/-!
The rows of the input line.
-/

namespace Clink.Display

open Doskey (peek next between)
open Doskey.Spec (flat)
open Utf (IsText)
open Ellipsify (Env oneRun)
open Spec

theorem split_snoc {α : Type} {A : List α} {a : α} {A1 B1 : List α} {r : α} (h : A ++ [a] = A1 ++ r :: B1) :
    (∃ B', B1 = B' ++ [a] ∧ A = A1 ++ r :: B') ∨ (A1 = A ∧ r = a ∧ B1 = []) := by
  rcases List.eq_nil_or_concat B1 with h0 | ⟨B', b, h0⟩
  · subst h0
    have := List.append_inj' h rfl
    right
    exact ⟨this.1.symm, by simpa using this.2.symm, rfl⟩
  · subst h0
    left
    have h' : A ++ [a] = (A1 ++ r :: B') ++ [b] := by simpa using h
    have := List.append_inj' h' rfl
    have hb : a = b := by simpa using this.2
    subst hb
    exact ⟨B', by simp, this.1⟩

theorem width_append (a b : List Piece) : width (a ++ b) = width a + width b := by simp [width]
theorem width_nil : width [] = 0 := rfl
theorem width_one (q : Piece) : width [q] = q.width := by simp [width]

theorem not_ends_nil : ¬ Ends [] := by simp [Ends]

theorem not_ends {a : List Piece} (h : ∀ q ∈ a, q.newline = false) : ¬ Ends a := by
  rintro ⟨q, hq, hn⟩
  have := h q (List.mem_of_getLast? hq)
  rw [this] at hn; cases hn

theorem ends_snoc {a : List Piece} {q : Piece} : Ends (a ++ [q]) ↔ q.newline = true := by simp [Ends]

/-! ### Arranging pieces -/

/-- Complete rows, the current row, and the column behind it. -/
structure Lay where
  A : List (List Piece)
  a : List Piece
  col : Nat

def Lay.add (W : Nat) (L : Lay) (q : Piece) : Lay :=
  if q.newline then ⟨L.A ++ [L.a ++ [q]], [], 0⟩
  else if W < L.col + q.width then ⟨L.A ++ [L.a], [q], q.width⟩
  else ⟨L.A, L.a ++ [q], L.col + q.width⟩

/-- The rows at the end. -/
def Lay.rows (W : Nat) (L : Lay) : List (List Piece) := if W ≤ L.col then L.A ++ [L.a, []] else L.A ++ [L.a]

structure Good (W x : Nat) (L : Lay) : Prop where
  col : L.col = startCol x L.A + width L.a
  cur : ∀ q ∈ L.a, q.newline = false
  newline : ∀ A a q b B, L.A = A ++ (a ++ q :: b) :: B → q.newline → b = []
  fits : ∀ A a q b B, L.A ++ [L.a] = A ++ (a ++ q :: b) :: B → q.newline = false → (A = [] ∨ a ≠ []) → startCol x A + width a + q.width ≤ W
  needed : ∀ A r r' B, L.A ++ [L.a] = A ++ r :: r' :: B → ¬ Ends r → ∃ q t, r' = q :: t ∧ q.newline = false ∧ W < startCol x A + width r + q.width

theorem good_start (W x : Nat) : Good W x ⟨[], [], x⟩ := by
  refine ⟨by simp [startCol, width], by simp, by simp, ?_, ?_⟩
  · intro A a q b B h
    rcases split_snoc (A := []) h with ⟨B', -, h⟩ | ⟨-, h, -⟩ <;> simp at h
  · intro A r r' B h
    rcases split_snoc (A := []) h with ⟨B', -, h⟩ | ⟨-, -, h⟩ <;> simp at h

theorem startCol_snoc (x : Nat) (A : List (List Piece)) (r : List Piece) : startCol x (A ++ [r]) = 0 := by simp [startCol]

theorem good_add {W x : Nat} {L : Lay} (h : Good W x L) (q : Piece) : Good W x (L.add W q) := by
  unfold Lay.add
  by_cases hn : q.newline = true
  · rw [if_pos hn]
    have hw : q.width = 0 := by
      unfold Piece.newline at hn; unfold Piece.width
      have : q.part = .newline := by simpa using hn
      rw [this]
    refine ⟨?_, by simp, ?_, ?_, ?_⟩
    · dsimp only; rw [startCol_snoc]; rfl
    · intro A a q' b B hA hq
      rcases split_snoc hA with ⟨B', -, h1⟩ | ⟨-, h1, -⟩
      · exact h.newline A a q' b B' h1 hq
      · rcases split_snoc h1.symm with ⟨B', -, h2⟩ | ⟨-, -, h2⟩
        · have := h.cur q' (by rw [h2]; simp)
          rw [this] at hq; cases hq
        · exact h2
    · intro A a q' b B hA hq ha
      rcases split_snoc hA with ⟨B', -, h1⟩ | ⟨-, h1, -⟩
      · rcases split_snoc h1 with ⟨B'', -, h2⟩ | ⟨h2, h3, -⟩
        · exact h.fits A a q' b (B'' ++ [L.a]) (by rw [h2]; simp) hq ha
        · rcases split_snoc h3.symm with ⟨b', -, h4⟩ | ⟨-, h4, -⟩
          · exact h.fits A a q' b' [] (by rw [h2, h4]) hq ha
          · rw [h4, hn] at hq; cases hq
      · simp at h1
    · intro A r r' B hA hr
      have hA' : (L.A ++ [L.a ++ [q]]) ++ [[]] = (A ++ [r]) ++ r' :: B := by simpa using hA
      rcases split_snoc hA' with ⟨B', -, h1⟩ | ⟨h1, -, -⟩
      · have h1' : L.A ++ [L.a ++ [q]] = A ++ r :: (r' :: B') := by simpa using h1
        rcases split_snoc h1' with ⟨B'', h2, h3⟩ | ⟨-, -, h3⟩
        · cases B'' with
          | nil =>
            simp at h2
            obtain ⟨h2, -⟩ := h2
            by_cases hla : L.a = []
            · exfalso
              have := h.needed A r [] [] (by rw [h3, hla]; simp) hr
              simp at this
            · obtain ⟨q0, t0, h5, h6, h7⟩ := h.needed A r L.a [] (by rw [h3]; simp) hr
              exact ⟨q0, t0 ++ [q], by rw [h2, h5]; simp, h6, h7⟩
          | cons r2 B2 =>
            simp at h2
            obtain ⟨h2, -⟩ := h2
            subst h2
            exact h.needed A r r' (B2 ++ [L.a]) (by rw [h3]; simp) hr
        · simp at h3
      · exfalso
        have := List.append_inj' h1 rfl
        have hr' : r = L.a ++ [q] := by simpa using this.2
        rw [hr', ends_snoc] at hr
        exact hr hn
  · rw [if_neg hn]
    have hn' : q.newline = false := by simpa using hn
    by_cases hW : W < L.col + q.width
    · rw [if_pos hW]
      refine ⟨?_, by simpa using hn', ?_, ?_, ?_⟩
      · dsimp only; rw [startCol_snoc, width_one, Nat.zero_add]
      · intro A a q' b B hA hq
        rcases split_snoc hA with ⟨B', -, h1⟩ | ⟨-, h1, -⟩
        · exact h.newline A a q' b B' h1 hq
        · have := h.cur q' (by rw [← h1]; simp)
          rw [this] at hq; cases hq
      · intro A a q' b B hA hq ha
        rcases split_snoc hA with ⟨B', -, h1⟩ | ⟨h0, h1, -⟩
        · exact h.fits A a q' b B' h1 hq ha
        · exfalso
          rcases ha with ha | ha
          · rw [ha] at h0; simp at h0
          · have := congrArg List.length h1
            simp at this
            exact ha (by simpa using (by omega : a.length = 0))
      · intro A r r' B hA hr
        have hA' : (L.A ++ [L.a]) ++ [[q]] = (A ++ [r]) ++ r' :: B := by simpa using hA
        rcases split_snoc hA' with ⟨B', -, h1⟩ | ⟨h1, h2, -⟩
        · exact h.needed A r r' B' (by simpa using h1) hr
        · have := List.append_inj' h1 rfl
          have hr' : r = L.a := by simpa using this.2
          refine ⟨q, [], h2, hn', ?_⟩
          rw [hr', this.1, ← h.col]; exact hW
    · rw [if_neg hW]
      refine ⟨?_, ?_, h.newline, ?_, ?_⟩
      · dsimp only; rw [h.col, width_append, width_one]; omega
      · intro q' hq'
        rcases List.mem_append.1 hq' with h1 | h1
        · exact h.cur q' h1
        · simp at h1; rw [h1]; exact hn'
      · intro A a q' b B hA hq ha
        rcases split_snoc hA with ⟨B', -, h1⟩ | ⟨h0, h1, -⟩
        · exact h.fits A a q' b (B' ++ [L.a]) (by rw [h1]; simp) hq ha
        · rcases split_snoc h1.symm with ⟨b', -, h4⟩ | ⟨h3, h4, -⟩
          · exact h.fits A a q' b' [] (by rw [h0, h4]) hq ha
          · have := h.col
            rw [h0, h3, h4]
            show startCol x L.A + width L.a + q.width ≤ W
            omega
      · intro A r r' B hA hr
        have hA' : L.A ++ [L.a ++ [q]] = (A ++ [r]) ++ r' :: B := by simpa using hA
        rcases split_snoc hA' with ⟨B', -, h1⟩ | ⟨h1, h2, -⟩
        · exact h.needed A r r' (B' ++ [L.a]) (by rw [h1]; simp) hr
        · obtain ⟨q0, t0, h5, h6, h7⟩ := h.needed A r L.a [] (by rw [← h1]; simp) hr
          exact ⟨q0, t0 ++ [q], by rw [h2, h5]; simp, h6, h7⟩

theorem good_fold {W x : Nat} (ps : List Piece) : ∀ {L : Lay}, Good W x L → Good W x (ps.foldl (Lay.add W) L) := by
  induction ps with
  | nil => intro L h; exact h
  | cons q ps ih => intro L h; exact ih (good_add h q)

theorem add_flatten (W : Nat) (L : Lay) (q : Piece) : (L.add W q).A.flatten ++ (L.add W q).a = L.A.flatten ++ L.a ++ [q] := by
  unfold Lay.add
  split
  · simp
  · split <;> simp

theorem fold_flatten (W : Nat) (ps : List Piece) : ∀ (L : Lay),
    (ps.foldl (Lay.add W) L).A.flatten ++ (ps.foldl (Lay.add W) L).a = L.A.flatten ++ L.a ++ ps := by
  induction ps with
  | nil => intro L; simp
  | cons q ps ih => intro L; rw [List.foldl_cons, ih, add_flatten]; simp

theorem rows_flatten (W : Nat) (L : Lay) : (L.rows W).flatten = L.A.flatten ++ L.a := by
  unfold Lay.rows; split <;> simp

theorem good_arranged {W x : Nat} {L : Lay} (h : Good W x L) : Arranged W x (L.A.flatten ++ L.a) (L.rows W) := by
  refine ⟨rows_flatten W L, ?_, ?_, ?_, ?_, ?_⟩
  · intro A a q b B hr hq
    have cur : ∀ (b : List Piece), L.a = a ++ q :: b → False := by
      intro b hb
      have := h.cur q (by rw [hb]; simp)
      rw [this] at hq; cases hq
    unfold Lay.rows at hr
    split at hr
    · have hr' : (L.A ++ [L.a]) ++ [[]] = A ++ (a ++ q :: b) :: B := by simpa using hr
      rcases split_snoc hr' with ⟨B', hB, h1⟩ | ⟨-, h1, -⟩
      · rcases split_snoc h1 with ⟨B'', -, h2⟩ | ⟨-, h2, -⟩
        · exact ⟨h.newline A a q b B'' h2 hq, by rw [hB]; simp⟩
        · exact (cur b h2.symm).elim
      · simp at h1
    · rcases split_snoc hr with ⟨B', hB, h1⟩ | ⟨-, h1, -⟩
      · exact ⟨h.newline A a q b B' h1 hq, by rw [hB]; simp⟩
      · exact (cur b h1.symm).elim
  · intro A a q b B hr hq ha
    unfold Lay.rows at hr
    split at hr
    · have hr' : (L.A ++ [L.a]) ++ [[]] = A ++ (a ++ q :: b) :: B := by simpa using hr
      rcases split_snoc hr' with ⟨B', hB, h1⟩ | ⟨-, h1, -⟩
      · exact h.fits A a q b B' h1 hq ha
      · simp at h1
    · exact h.fits A a q b B hr hq ha
  · intro A r r' B hr hne
    unfold Lay.rows at hr
    split at hr
    · rename_i hW
      have hr' : (L.A ++ [L.a]) ++ [[]] = (A ++ [r]) ++ r' :: B := by simpa using hr
      rcases split_snoc hr' with ⟨B', hB, h1⟩ | ⟨h1, h2, h3⟩
      · exact .inl (h.needed A r r' B' (by simpa using h1) hne)
      · right
        have := List.append_inj' h1 rfl
        have hr' : r = L.a := by simpa using this.2
        refine ⟨h2, h3, ?_⟩
        rw [hr', this.1, ← h.col]; exact hW
    · exact .inl (h.needed A r r' B hr hne)
  · intro A r hr hne
    unfold Lay.rows at hr
    split at hr
    · have hr' : (L.A ++ [L.a]) ++ [[]] = A ++ [r] := by simpa using hr
      have := List.append_inj' hr' rfl
      have h2 : r = [] := by simpa using this.2.symm
      rcases hne with hne | hne
      · exact absurd h2 hne
      · rw [hne] at this; simp at this
    · have := List.append_inj' hr rfl
      have h2 : r = L.a := by simpa using this.2.symm
      rw [h2, ← this.1, ← h.col]; omega
  · unfold Lay.rows; split <;> simp

/-! ### What the code does with one piece -/

theorem holds_congr {W x total : Nat} {face : Nat → Nat} {A : List (List Piece)} {r : List Piece} {B B' : List (List Piece)} {d : Row}
    (h : Holds W x total face A r B d) (h1 : B.flatten = B'.flatten) (h2 : B = [] ↔ B' = []) : Holds W x total face A r B' d := by
  obtain ⟨a1, a2, a3, a4, a5, a6, a7, a8⟩ := h
  rw [h1] at a3 a4
  rw [h2] at a2
  refine ⟨a1, ⟨a2.1, fun h => a2.2 (fun h' => h (h2.1 h'))⟩, a3, a4, a5, a6, a7, a8⟩

def LeadOk (W total : Nat) (A : List (List Piece)) (r : List Piece) (lead : Nat) : Prop :=
  2 ≤ W → (¬ Goes A → lead = 0) ∧ (Goes A → lead = (r.takeWhile fun q => q.ctrl && q.pos == startPos total r).length)

/-- The rows of the code hold what has been arranged so far. -/
structure Rel (su : Setup) (p x total : Nat) (L : Lay) (rest : List Piece) (rows : List Row) (d : Row) (col : Nat) : Prop where
  col : col = L.col
  at_ : L.col = startCol x L.A + width L.a
  cur : ∀ q ∈ L.a, q.newline = false
  rows : ∃ ds, rows = List.replicate p ({} : Row) ++ ds ∧ ds.length = L.A.length ∧
    ∀ A1 r A2, L.A = A1 ++ r :: A2 → ∃ d, ds[A1.length]? = some d ∧ Holds su.width x total su.face A1 r (A2 ++ [L.a ++ rest]) d
  text : d.text = (L.a.map (Piece.faced su.face)).flatten
  trail : d.trail = 0
  start : d.start = startPos total (L.a ++ rest)
  left : d.x = startCol x L.A
  newline : d.newline = false

variable {su : Setup} {p x total : Nat} {L : Lay} {rest : List Piece} {rows : List Row} {d : Row} {col : Nat} {q : Piece}

theorem rows_add {L' : Lay} {rest' : List Piece} {d' : Row} {r : List Piece} (h : Rel su p x total L rest rows d col)
    (hA : L'.A = L.A ++ [r]) (hr : L.a ++ rest = r ++ (L'.a ++ rest'))
    (hd : Holds su.width x total su.face L.A r [L'.a ++ rest'] d') :
    ∃ ds, rows ++ [d'] = List.replicate p ({} : Row) ++ ds ∧ ds.length = L'.A.length ∧
      ∀ A1 r A2, L'.A = A1 ++ r :: A2 → ∃ d, ds[A1.length]? = some d ∧ Holds su.width x total su.face A1 r (A2 ++ [L'.a ++ rest']) d := by
  obtain ⟨ds, h1, h2, h3⟩ := h.rows
  refine ⟨ds ++ [d'], by rw [h1]; simp, by rw [hA]; simp [h2], ?_⟩
  intro A1 r1 A2 h4
  rw [hA] at h4
  rcases split_snoc h4 with ⟨B', h5, h6⟩ | ⟨h5, h6, h7⟩
  · obtain ⟨d1, h7, h8⟩ := h3 A1 r1 B' h6
    refine ⟨d1, ?_, holds_congr h8 ?_ (by simp)⟩
    · rw [List.getElem?_append_left (by rw [h2, h6]; simp), h7]
    · rw [h5]; simp [hr]
  · refine ⟨d', ?_, ?_⟩
    · rw [h5, ← h2]; simp
    · rw [h5, h6, h7]; exact hd

theorem rel_wrap (h : Rel su p x total L (q :: rest) rows d col) (hl : LeadOk su.width total L.A L.a d.lead) :
    Rel su p x total ⟨L.A ++ [L.a], [], 0⟩ (q :: rest)
      (rows ++ [{ d with lastcol := col, stop := q.pos, newline := false, trail := d.trail + (su.width - col),
                         text := d.text ++ List.replicate (su.width - col) (32, faceNormal) }])
      { start := q.pos } 0 := by
  have hne : ¬ Ends L.a := not_ends h.cur
  refine ⟨rfl, by rw [startCol_snoc]; rfl, by simp, ?_, rfl, rfl, rfl, (startCol_snoc _ _ _).symm, rfl⟩
  refine rows_add h rfl (by simp) ?_
  refine ⟨?_, ⟨?_, ?_⟩, ?_, ⟨?_, ?_⟩, h.left, ?_, ?_, hl⟩
  · dsimp only; rw [h.text, h.trail, Nat.zero_add]; rfl
  · rintro (h1 | h1)
    · simp at h1
    · exact absurd h1 hne
  · intro _ _
    dsimp only
    rw [h.trail, h.col, h.at_, Nat.zero_add]
  · dsimp only; rw [h.start]; simp
  · intro a q' h1 h2
    exact absurd (h1 ▸ ends_snoc.2 h2) hne
  · intro _; simp [startPos]
  · dsimp only; rw [h.col, h.at_]
  · simp [hne]

theorem rel_newline (h : Rel su p x total L (q :: rest) rows d col) (hl : LeadOk su.width total L.A (L.a ++ [q]) d.lead) (hq : q.newline = true)
    {nx : Nat} (hnx : nx = startPos total rest) (hb : q.faced su.face = []) (hw : q.width = 0) :
    Rel su p x total ⟨L.A ++ [L.a ++ [q]], [], 0⟩ rest
      (rows ++ [{ d with lastcol := col, stop := q.pos, newline := true, trail := d.trail + 0,
                         text := d.text ++ List.replicate 0 (32, faceNormal) }])
      { start := nx } 0 := by
  have hne : Ends (L.a ++ [q]) := ends_snoc.2 hq
  refine ⟨rfl, by rw [startCol_snoc]; rfl, by simp, ?_, rfl, rfl, by simpa using hnx, (startCol_snoc _ _ _).symm, rfl⟩
  refine rows_add h rfl (by simp) ?_
  refine ⟨?_, ⟨?_, ?_⟩, ?_, ⟨?_, ?_⟩, h.left, ?_, ?_, hl⟩
  · dsimp only; rw [h.text, h.trail]; simp [hb]
  · intro _; dsimp only; rw [h.trail]
  · intro _ h1; exact absurd hne h1
  · dsimp only; rw [h.start]; simp
  · intro a q' h1 h2
    have := List.append_inj' h1 rfl
    dsimp only
    have : q = q' := by simpa using this.2
    rw [this]
  · intro h1; exact absurd hne h1
  · dsimp only; rw [h.col, h.at_, width_append, width_one, hw]; omega
  · simp [hne]

theorem rel_append (h : Rel su p x total L (q :: rest) rows d col) (hq : q.newline = false) (lead : Nat) :
    Rel su p x total ⟨L.A, L.a ++ [q], L.col + q.width⟩ rest rows
      { d with text := d.text ++ q.faced su.face, lead := lead } (col + q.width) := by
  refine ⟨by dsimp only; rw [h.col], ?_, ?_, ?_, ?_, h.trail, ?_, h.left, h.newline⟩
  · dsimp only; rw [h.at_, width_append, width_one, Nat.add_assoc]
  · intro q' hq'
    rcases List.mem_append.1 hq' with h1 | h1
    · exact h.cur q' h1
    · simp at h1; rw [h1]; exact hq
  · obtain ⟨ds, h1, h2, h3⟩ := h.rows
    refine ⟨ds, h1, h2, ?_⟩
    intro A1 r A2 h4
    obtain ⟨d', h5, h6⟩ := h3 A1 r A2 h4
    exact ⟨d', h5, by simpa using h6⟩
  · dsimp only; rw [h.text]; simp
  · dsimp only; rw [h.start]; simp

/-! ### The cursor -/

/-- The cursor for the rows so far. -/
def Cur (p x point : Nat) (rows : List (List Piece)) (vpos cpos : Nat) : Prop :=
  ∀ A a q b B, rows = A ++ (a ++ q :: b) :: B → q.first → q.pos ≤ point → point < q.pos + q.len →
    vpos = p + A.length ∧ cpos = startCol x A + width a

variable {point vpos cpos : Nat} {A : List (List Piece)} {a : List Piece}

theorem cur_empty (h : Cur p x point A vpos cpos) : Cur p x point (A ++ [[]]) vpos cpos := by
  intro A1 a1 q b B h1
  rcases split_snoc h1 with ⟨B', -, h2⟩ | ⟨-, h2, -⟩
  · exact h A1 a1 q b B' h2
  · simp at h2

/-- A piece that does not hold the cursor. -/
theorem cur_skip (h : Cur p x point (A ++ [a]) vpos cpos) (hq : q.first = true → q.pos ≤ point → point < q.pos + q.len → False) :
    Cur p x point (A ++ [a ++ [q]]) vpos cpos := by
  intro A1 a1 q1 b B h1 h2 h3 h4
  rcases split_snoc h1 with ⟨B', -, h5⟩ | ⟨h5, h6, -⟩
  · exact h A1 a1 q1 b (B' ++ [a]) (by rw [h5]; simp) h2 h3 h4
  · rcases split_snoc h6.symm with ⟨b', -, h7⟩ | ⟨-, h7, -⟩
    · exact h A1 a1 q1 b' [] (by rw [h5, h7]) h2 h3 h4
    · rw [h7] at h2 h3 h4; exact (hq h2 h3 h4).elim

/-- The piece that holds the cursor. -/
theorem cur_set (hd : ∀ q' ∈ A.flatten ++ a, q'.pos + q'.len ≤ point) (hv : vpos = p + A.length) (hc : cpos = startCol x A + width a) :
    Cur p x point (A ++ [a ++ [q]]) vpos cpos := by
  intro A1 a1 q1 b B h1 h2 h3 h4
  have no : q1 ∈ A.flatten ++ a → False := fun hm => by have := hd q1 hm; omega
  rcases split_snoc h1 with ⟨B', -, h5⟩ | ⟨h5, h6, -⟩
  · exact (no (by rw [h5]; simp)).elim
  · rcases split_snoc h6.symm with ⟨b', -, h7⟩ | ⟨h7, -, -⟩
    · exact (no (by rw [h7]; simp)).elim
    · rw [h5, h7]; exact ⟨hv, hc⟩

/-! ### One character -/

structure Inv (su : Setup) (p x total : Nat) (L : Lay) (rest : List Piece) (s : Lines) : Prop where
  rel : Rel su p x total L rest s.rows s.d s.col
  good : Good su.width x L
  lead : LeadOk su.width total L.A L.a s.d.lead
  idx : s.pos = s.index
  done : ∀ q ∈ L.A.flatten ++ L.a, q.pos < s.index ∧ q.pos + q.len ≤ s.index
  next : startPos total rest = s.index
  cur : Cur p x su.point (L.A ++ [L.a]) s.vpos s.cpos

theorem Rel.len (h : Rel su p x total L rest rows d col) : rows.length = p + L.A.length := by
  obtain ⟨ds, h1, h2, -⟩ := h.rows
  rw [h1]; simp [h2]

theorem good_goes {W : Nat} (h : Good W x L) (ha : L.a = []) : ¬ Goes L.A := by
  rintro ⟨A', r, h1, h2⟩
  obtain ⟨q, t, h3, -⟩ := h.needed A' r L.a [] (by rw [h1]; simp) h2
  rw [ha] at h3; cases h3

theorem goes_snoc {r : List Piece} : Goes (A ++ [r]) ↔ ¬ Ends r := by
  constructor
  · rintro ⟨A', r', h1, h2⟩
    have := List.append_inj' h1 rfl
    have : r = r' := by simpa using this.2
    rw [this]; exact h2
  · intro h; exact ⟨A, r, rfl, h⟩

theorem lead_any {W : Nat} {a' : List Piece} {n : Nat} (h : LeadOk W total A a n) (hg : ¬ Goes A) : LeadOk W total A a' n :=
  fun hw => ⟨fun _ => (h hw).1 hg, fun h' => absurd h' hg⟩

theorem takeWhile_snoc_neg {α : Type} (f : α → Bool) (l : List α) {q : α} (h : f q = false) : (l ++ [q]).takeWhile f = l.takeWhile f := by
  induction l with
  | nil => simp [h]
  | cons y l ih =>
    rw [List.cons_append, List.takeWhile_cons, List.takeWhile_cons, ih]

theorem lead_snoc {W n : Nat} (h : LeadOk W total A a n) (hg : a = [] → ¬ Goes A) (hq : ∀ q' t, a = q' :: t → q'.pos ≠ q.pos) :
    LeadOk W total A (a ++ [q]) n := by
  cases a with
  | nil => exact lead_any h (hg rfl)
  | cons q' t =>
    intro hw
    refine ⟨(h hw).1, fun hG => ?_⟩
    rw [(h hw).2 hG, List.cons_append]
    show _ = ((q' :: (t ++ [q])).takeWhile (fun q => q.ctrl && q.pos == q'.pos)).length
    rw [← List.cons_append, takeWhile_snoc_neg _ _ (by have := hq q' t rfl; simp; intro _ h; exact this h.symm)]
    rfl

@[simp] theorem cursorIf_rows (s : Lines) (b : Bool) : (s.cursorIf b).rows = s.rows := by unfold Lines.cursorIf Lines.cursor; split <;> rfl
@[simp] theorem cursorIf_d (s : Lines) (b : Bool) : (s.cursorIf b).d = s.d := by unfold Lines.cursorIf Lines.cursor; split <;> rfl
@[simp] theorem cursorIf_col (s : Lines) (b : Bool) : (s.cursorIf b).col = s.col := by unfold Lines.cursorIf Lines.cursor; split <;> rfl
@[simp] theorem cursorIf_index (s : Lines) (b : Bool) : (s.cursorIf b).index = s.index := by unfold Lines.cursorIf Lines.cursor; split <;> rfl
@[simp] theorem cursorIf_pos (s : Lines) (b : Bool) : (s.cursorIf b).pos = s.pos := by unfold Lines.cursorIf Lines.cursor; split <;> rfl

/-- Setting the cursor under a condition, and then adding the piece. -/
theorem cur_if {s : Lines} {b : Bool} (hlen : s.rows.length = p + A.length) (hcol : s.col = startCol x A + width a)
    (hd : ∀ q' ∈ A.flatten ++ a, q'.pos + q'.len ≤ q.pos) (hf : q.first = true)
    (hb : b = true ↔ q.pos ≤ su.point ∧ su.point < q.pos + q.len) (h : b = false → Cur p x su.point (A ++ [a]) s.vpos s.cpos) :
    Cur p x su.point (A ++ [a ++ [q]]) (s.cursorIf b).vpos (s.cursorIf b).cpos := by
  cases b with
  | true =>
    obtain ⟨h1, -⟩ := hb.1 rfl
    exact cur_set (fun q' hq' => Nat.le_trans (hd q' hq') h1) hlen hcol
  | false =>
    exact cur_skip (h rfl) fun _ h1 h2 => absurd (hb.2 ⟨h1, h2⟩) (by decide)

theorem inv_text {s : Lines} {ch : Ch} (h : Inv su p x total L (q :: rest) s) (hq : q = ⟨s.index, ch.bytes.length, true, false, .cells ch.bytes ch.w.toNat⟩)
    (hlen : 0 < ch.bytes.length) (hnext : startPos total rest = s.index + ch.bytes.length) :
    Inv su p x total (L.add su.width q) rest (stepText su ch s) := by
  have hn : q.newline = false := by rw [hq]; rfl
  have hw : q.width = ch.w.toNat := by rw [hq]; rfl
  have hpos : q.pos = s.index := by rw [hq]
  have hql : q.len = ch.bytes.length := by rw [hq]
  have hfa : q.faced su.face = ch.bytes.zipIdx.map fun (b, i) => (b, su.face (s.index + i)) := by rw [hq]; rfl
  have hqf : q.first = true := by rw [hq]
  have hqc : q.ctrl = false := by rw [hq]
  have hb : ∀ (i : Nat), i = s.index → ((decide (i ≤ su.point) && decide (su.point < i + ch.bytes.length)) = true ↔
      q.pos ≤ su.point ∧ su.point < q.pos + q.len) := by
    rintro i rfl; rw [hpos, hql]; simp
  unfold stepText Lay.add
  simp only [hn, Bool.false_eq_true, if_false]
  have hcol := h.rel.col
  by_cases hW : su.width < L.col + q.width
  · rw [if_pos hW, if_pos (by rw [hcol, ← hw]; exact hW)]
    have hl := rel_wrap h.rel h.lead
    have hr := rel_append hl hn 0
    have hg : Goes (L.A ++ [L.a]) := goes_snoc.2 (not_ends h.rel.cur)
    refine ⟨?_, ?_, ?_, ?_, ?_, ?_, ?_⟩
    · simp only [cursorIf_rows, cursorIf_d, cursorIf_col, cursorIf_index]
      rw [show ((s.close s.pos (su.width - s.col) false).nextLine s.pos).col = 0 from rfl,
        show ((s.close s.pos (su.width - s.col) false).nextLine s.pos).index = s.index from rfl, Nat.zero_add]
      rw [hfa, hpos, ← h.idx] at hr
      simp only [Nat.zero_add, List.nil_append] at hr
      rw [h.idx] at hr ⊢
      rw [← hw]
      exact hr
    · have := good_add h.good q
      unfold Lay.add at this
      rw [if_neg (by simp [hn]), if_pos hW] at this
      exact this
    · simp only [cursorIf_d]
      intro _
      refine ⟨fun hG => absurd hg hG, fun _ => ?_⟩
      simp [hqc, Lines.nextLine]
    · simp only [cursorIf_index, cursorIf_pos]
      simp only [Lines.nextLine, Lines.close]
      rw [h.idx]
    · simp only [cursorIf_index]
      simp only [Lines.nextLine, Lines.close]
      intro q' hq'
      simp only [List.flatten_append, List.mem_append, List.flatten_cons, List.flatten_nil, List.append_nil, List.mem_singleton] at hq'
      rcases hq' with hq' | hq'
      · have := h.done q' (by simpa using hq')
        omega
      · rw [hq', hpos, hql]; omega
    · simp only [cursorIf_index]
      simp only [Lines.nextLine, Lines.close]
      exact hnext
    · have := cur_if (su := su) (p := p) (x := x) (A := L.A ++ [L.a]) (a := []) (q := q) (s := (s.close s.pos (su.width - s.col) false).nextLine s.pos)
        (b := (decide (((s.close s.pos (su.width - s.col) false).nextLine s.pos).index ≤ su.point) &&
          decide (su.point < ((s.close s.pos (su.width - s.col) false).nextLine s.pos).index + ch.bytes.length)))
        (by simp [Lines.nextLine, Lines.close, h.rel.len]; omega) (by rw [startCol_snoc]; rfl)
        (by intro q' hq'; rw [hpos]; exact (h.done q' (by simpa using hq')).2) hqf (hb _ rfl) (fun _ => cur_empty h.cur)
      exact this
  · rw [if_neg hW, if_neg (by rw [hcol, ← hw]; exact hW)]
    have hr := rel_append h.rel hn s.d.lead
    refine ⟨?_, ?_, ?_, ?_, ?_, ?_, ?_⟩
    · simp only [cursorIf_rows, cursorIf_d, cursorIf_col, cursorIf_index]
      rw [hfa, hw] at hr
      rw [hw]
      exact hr
    · have := good_add h.good q
      unfold Lay.add at this
      rw [if_neg (by simp [hn]), if_neg hW] at this
      exact this
    · simp only [cursorIf_d]
      refine lead_snoc h.lead (good_goes h.good) ?_
      intro q' t ht
      have := h.done q' (by rw [ht]; simp)
      omega
    · simp only [cursorIf_index, cursorIf_pos]
      rw [h.idx]
    · simp only [cursorIf_index]
      intro q' hq'
      simp only [List.mem_append, List.mem_singleton] at hq'
      rcases hq' with hq' | hq' | hq'
      · have := h.done q' (by simp [hq']); omega
      · have := h.done q' (by simp [hq']); omega
      · rw [hq', hpos, hql]; omega
    · simp only [cursorIf_index]; exact hnext
    · exact cur_if h.rel.len (by rw [hcol, h.rel.at_]) (by intro q' hq'; rw [hpos]; exact (h.done q' hq').2) hqf (hb _ rfl) (fun _ => h.cur)

theorem inv_lf {s : Lines} (h : Inv su p x total L (q :: rest) s) (hq : q = ⟨s.index, 1, true, false, .newline⟩)
    (hnext : startPos total rest = s.index + 1) : Inv su p x total (L.add su.width q) rest (stepLf su s) := by
  have hn : q.newline = true := by rw [hq]; rfl
  have hpos : q.pos = s.index := by rw [hq]
  have hql : q.len = 1 := by rw [hq]
  have hw : q.width = 0 := by rw [hq]; rfl
  have hb : q.faced su.face = [] := by rw [hq]; rfl
  have hqf : q.first = true := by rw [hq]
  have hlead : LeadOk su.width total L.A (L.a ++ [q]) s.d.lead := by
    refine lead_snoc h.lead (good_goes h.good) ?_
    intro q' t ht
    have := h.done q' (by rw [ht]; simp)
    omega
  unfold stepLf Lay.add
  rw [if_pos hn]
  refine ⟨?_, ?_, ?_, ?_, ?_, ?_, ?_⟩
  · have := rel_newline h.rel hlead hn hnext.symm hb hw
    rw [hpos] at this
    simpa [Lines.nextLine, Lines.close] using this
  · have := good_add h.good q
    unfold Lay.add at this
    rw [if_pos hn] at this
    exact this
  · intro _
    refine ⟨fun _ => rfl, fun hG => absurd (ends_snoc.2 hn) (goes_snoc.1 hG)⟩
  · simp [Lines.nextLine, Lines.close, h.idx]
  · intro q' hq'
    simp only [List.flatten_append, List.mem_append, List.flatten_cons, List.flatten_nil, List.append_nil, List.mem_singleton] at hq'
    simp only [Lines.nextLine, cursorIf_index, Lines.close]
    rcases hq' with hq' | hq' | hq'
    · have := h.done q' (by simp [hq']); omega
    · have := h.done q' (by simp [hq']); omega
    · rw [hq', hpos, hql]; omega
  · simp only [Lines.nextLine, cursorIf_index, Lines.close]; exact hnext
  · have := cur_if (su := su) (p := p) (x := x) (A := L.A) (a := L.a) (q := q) (s := s.close s.index 0 true)
      (b := (s.close s.index 0 true).index == su.point) h.rel.len (by show s.col = _; rw [h.rel.col, h.rel.at_])
      (by intro q' hq'; rw [hpos]; exact (h.done q' hq').2) hqf
      (by rw [hpos, hql]; show (s.index == su.point) = true ↔ _; simp; omega) (fun _ => h.cur)
    exact cur_empty this

theorem rel_lead (h : Rel su p x total L rest rows d col) (n : Nat) : Rel su p x total L rest rows { d with lead := n } col :=
  ⟨h.col, h.at_, h.cur, h.rows, h.text, h.trail, h.start, h.left, h.newline⟩

theorem byte_rel {s : Lines} {first : Bool} {b face : Nat} (h : Rel su p x total L (q :: rest) s.rows s.d s.col) (hl : LeadOk su.width total L.A L.a s.d.lead)
    (hn : q.newline = false) (hw : q.width = 1) (hpos : q.pos = s.index) (hf : q.faced su.face = [(b, face)]) :
    Rel su p x total (L.add su.width q) rest (stepByte su first b face s).1.rows (stepByte su first b face s).1.d (stepByte su first b face s).1.col ∧
    (stepByte su first b face s).1.index = s.index ∧ (stepByte su first b face s).1.pos = s.pos ∧
    (stepByte su first b face s).2 = decide (su.width ≤ L.col) ∧
    (stepByte su first b face s).1.d.lead = if su.width ≤ L.col then 0 else s.d.lead := by
  have hcol := h.col
  unfold stepByte Lay.add
  rw [if_neg (by simp [hn]), hw]
  by_cases hW : su.width ≤ L.col
  · rw [if_pos (by omega), if_pos (by rw [hcol]; exact hW), if_pos hW]
    refine ⟨?_, ?_, ?_, by simp [hW], ?_⟩
    · have hr := rel_append (rel_wrap h hl) hn 0
      rw [hf, hpos, hw, show su.width - s.col = 0 by omega] at hr
      simp only [Nat.zero_add, List.nil_append] at hr
      simp only [cursorIf_rows, cursorIf_d, cursorIf_col]
      exact hr
    · simp only [cursorIf_index]; rfl
    · simp only [cursorIf_pos]; rfl
    · simp only [cursorIf_d]; rfl
  · rw [if_neg (by omega), if_neg (by rw [hcol]; exact hW), if_neg hW]
    refine ⟨?_, rfl, rfl, by simp [hW], rfl⟩
    have hr := rel_append h hn s.d.lead
    rw [hf, hw] at hr
    exact hr

/-- The cursor with the second byte. -/
theorem byte_cur {s : Lines} {b face : Nat} (h : Cur p x su.point (L.A ++ [L.a]) s.vpos s.cpos) (hn : q.newline = false) (hf : q.first = false) :
    Cur p x su.point ((L.add su.width q).A ++ [(L.add su.width q).a]) (stepByte su false b face s).1.vpos (stepByte su false b face s).1.cpos := by
  have e : (stepByte su false b face s).1.vpos = s.vpos ∧ (stepByte su false b face s).1.cpos = s.cpos := by
    unfold stepByte; split <;> exact ⟨rfl, rfl⟩
  rw [e.1, e.2]
  unfold Lay.add
  rw [if_neg (by simp [hn])]
  split
  · exact cur_skip (a := []) (cur_empty h) (by simp [hf])
  · exact cur_skip h (by simp [hf])

theorem byte_cur_first {s : Lines} {b face : Nat} (h : Rel su p x total L (q :: rest) s.rows s.d s.col)
    (hc : Cur p x su.point (L.A ++ [L.a]) s.vpos s.cpos) (hd : ∀ q' ∈ L.A.flatten ++ L.a, q'.pos + q'.len ≤ q.pos)
    (hn : q.newline = false) (hw : q.width = 1) (hf : q.first = true) (hpos : q.pos = s.index) (hlen : q.len = 1) :
    Cur p x su.point ((L.add su.width q).A ++ [(L.add su.width q).a]) (stepByte su true b face (s.cursorIf (s.index == su.point))).1.vpos
      (stepByte su true b face (s.cursorIf (s.index == su.point))).1.cpos := by
  have hcol := h.col
  have hb : (s.index == su.point) = true ↔ q.pos ≤ su.point ∧ su.point < q.pos + q.len := by rw [hpos, hlen]; simp; omega
  unfold Lay.add
  rw [if_neg (by simp [hn]), hw]
  unfold stepByte
  simp only [cursorIf_col, cursorIf_index]
  by_cases hW : su.width ≤ L.col
  · rw [if_pos (by omega), if_pos (by rw [hcol]; exact hW)]
    have := cur_if (su := su) (p := p) (x := x) (A := L.A ++ [L.a]) (a := []) (q := q)
      (s := ((s.cursorIf (s.index == su.point)).close s.index 0 false).nextLine s.index)
      (b := (s.index == su.point)) (by simp [Lines.nextLine, Lines.close, h.len]; omega) (by rw [startCol_snoc]; rfl)
      (by intro q' hq'; exact hd q' (by simpa using hq')) hf hb
      (fun hb => by
        have e : ∀ (s : Lines), s.cursorIf false = s := fun _ => rfl
        rw [hb, e]
        exact cur_empty hc)
    simp only [Bool.true_and]
    have e : (((s.cursorIf (s.index == su.point)).close s.index 0 false).nextLine s.index).index = s.index := by
      simp [Lines.nextLine, Lines.close]
    rw [e]
    exact this
  · rw [if_neg (by omega), if_neg (by rw [hcol]; exact hW)]
    exact cur_if h.len (by rw [hcol, h.at_]) hd hf hb (fun _ => hc)

theorem inv_ctrl {s : Lines} {ch : Ch} {q2 : Piece} (h : Inv su p x total L (q :: q2 :: rest) s) (hq : q = ⟨s.index, 1, true, true, .cells [94] 1⟩)
    (hq2 : q2 = ⟨s.index, 1, false, true, .cells [unctrl ch.c] 1⟩) (hlen : ch.bytes.length = 1)
    (hnext : startPos total rest = s.index + 1) : Inv su p x total ((L.add su.width q).add su.width q2) rest (stepCtrl su ch s) := by
  have hn : q.newline = false := by rw [hq]; rfl
  have hn2 : q2.newline = false := by rw [hq2]; rfl
  have hw : q.width = 1 := by rw [hq]; rfl
  have hw2 : q2.width = 1 := by rw [hq2]; rfl
  have hpos : q.pos = s.index := by rw [hq]
  have hpos2 : q2.pos = s.index := by rw [hq2]
  have hql : q.len = 1 := by rw [hq]
  have hql2 : q2.len = 1 := by rw [hq2]
  have hqf : q.first = true := by rw [hq]
  have hqf2 : q2.first = false := by rw [hq2]
  have hqc : q.ctrl = true := by rw [hq]
  have hqc2 : q2.ctrl = true := by rw [hq2]
  have hfa : q.faced su.face = [(94, su.face s.index)] := by rw [hq]; rfl
  have hfa2 : q2.faced su.face = [(unctrl ch.c, su.face s.index)] := by rw [hq2]; rfl
  have hcol := h.rel.col
  obtain ⟨s0, hs0⟩ : ∃ s0, s0 = s.cursorIf (s.index == su.point) := ⟨_, rfl⟩
  have e0 : s0.rows = s.rows ∧ s0.d = s.d ∧ s0.col = s.col ∧ s0.index = s.index ∧ s0.pos = s.pos := by
    rw [hs0]; exact ⟨cursorIf_rows .., cursorIf_d .., cursorIf_col .., cursorIf_index .., cursorIf_pos ..⟩
  obtain ⟨r1, hr1⟩ : ∃ r1, r1 = stepByte su true 94 (su.face s.index) s0 := ⟨_, rfl⟩
  obtain ⟨b1, b2, b3, b4, b5⟩ := byte_rel (L := L) (s := s0) (first := true) (b := 94) (face := su.face s.index) (by rw [e0.1, e0.2.1, e0.2.2.1]; exact h.rel)
    (by rw [e0.2.1]; exact h.lead) hn hw (by rw [hpos, e0.2.2.2.1]) hfa
  have c1 : Cur p x su.point ((L.add su.width q).A ++ [(L.add su.width q).a]) r1.1.vpos r1.1.cpos := by
    rw [hr1, hs0]
    exact byte_cur_first h.rel h.cur (by intro q' hq'; rw [hpos]; exact (h.done q' hq').2) hn hw hqf hpos hql
  rw [← hr1, e0.2.2.2.1] at b2
  rw [← hr1, e0.2.2.2.2] at b3
  rw [← hr1] at b1 b4 b5
  rw [e0.2.1] at b5
  have g1 := good_add h.good q
  have g2 := good_add g1 q2
  -- the lead after the first byte
  have ladd : L.add su.width q = if su.width ≤ L.col then ⟨L.A ++ [L.a], [q], 1⟩ else ⟨L.A, L.a ++ [q], L.col + 1⟩ := by
    unfold Lay.add
    rw [if_neg (by simp [hn]), hw]
    by_cases hW : su.width ≤ L.col
    · rw [if_pos (by omega), if_pos hW]
    · rw [if_neg (by omega), if_neg hW]
  have hne := not_ends h.rel.cur
  have hposne : ∀ q' t, L.a = q' :: t → q'.pos ≠ s.index := by
    intro q' t ht
    have := h.done q' (by rw [ht]; simp)
    omega
  have l1 : su.width < 2 ∨ ¬ su.width ≤ L.col → LeadOk su.width total (L.add su.width q).A (L.add su.width q).a r1.1.d.lead := by
    intro hc
    rcases hc with hc | hc
    · intro hw; omega
    · rw [b5, ladd, if_neg hc, if_neg hc]
      exact lead_snoc h.lead (good_goes h.good) (by rw [hpos]; exact hposne)
  have hL1 : LeadOk su.width total (L.add su.width q).A (L.add su.width q).a r1.1.d.lead ∨ ¬ su.width ≤ (L.add su.width q).col := by
    by_cases hc : su.width < 2 ∨ ¬ su.width ≤ L.col
    · exact .inl (l1 hc)
    · right
      have : su.width ≤ L.col := by omega
      rw [ladd, if_pos this]
      show ¬ su.width ≤ 1
      omega
  obtain ⟨r2, hr2⟩ : ∃ r2, r2 = stepByte su false (unctrl ch.c) (su.face s.index) r1.1 := ⟨_, rfl⟩
  have key : Rel su p x total ((L.add su.width q).add su.width q2) rest r2.1.rows r2.1.d r2.1.col ∧ r2.1.index = s.index ∧ r2.1.pos = s.pos ∧
      r2.2 = decide (su.width ≤ (L.add su.width q).col) ∧ r2.1.d.lead = if su.width ≤ (L.add su.width q).col then 0 else r1.1.d.lead := by
    rcases hL1 with hL1 | hL1
    · obtain ⟨d1, d2, d3, d4, d5⟩ := byte_rel (s := r1.1) (first := false) (b := unctrl ch.c) (face := su.face s.index) b1 hL1 hn2 hw2 (by rw [hpos2, b2]) hfa2
      rw [← hr2] at d1 d2 d3 d4 d5
      exact ⟨d1, by rw [d2, b2], by rw [d3, b3], d4, d5⟩
    · have hr2' := hr2
      unfold stepByte at hr2'
      rw [if_neg (by rw [b1.col]; exact hL1)] at hr2'
      rw [hr2']
      refine ⟨?_, b2, b3, by simp [hL1], by rw [if_neg hL1]⟩
      have := rel_append b1 hn2 r1.1.d.lead
      rw [hfa2, hw2] at this
      unfold Lay.add at hL1 ⊢
      rw [if_neg (by simp [hn2]), hw2]
      have hL2 : ¬ su.width < (L.add su.width q).col + 1 := by unfold Lay.add; omega
      unfold Lay.add at hL2
      rw [if_neg hL2]
      exact this
  obtain ⟨d1, d2, d3, d4, d5⟩ := key
  have c2 : Cur p x su.point (((L.add su.width q).add su.width q2).A ++ [((L.add su.width q).add su.width q2).a]) r2.1.vpos r2.1.cpos := by
    rw [hr2]; exact byte_cur c1 hn2 hqf2
  have fin : stepCtrl su ch s =
      if (r1.2 || r2.2) = true then { r2.1 with index := r2.1.index + 1, pos := r2.1.pos + ch.bytes.length, d := { r2.1.d with lead := r2.1.col } }
      else { r2.1 with index := r2.1.index + 1, pos := r2.1.pos + ch.bytes.length } := by
    rw [hr2, hr1, hs0]; rfl
  have hdone : ∀ q' ∈ ((L.add su.width q).add su.width q2).A.flatten ++ ((L.add su.width q).add su.width q2).a,
      q'.pos < s.index + 1 ∧ q'.pos + q'.len ≤ s.index + 1 := by
    intro q' hq'
    rw [add_flatten, add_flatten] at hq'
    simp only [List.mem_append, List.mem_singleton] at hq'
    rcases hq' with ((hq' | hq') | hq') | hq'
    · have := h.done q' (by simp [hq']); omega
    · have := h.done q' (by simp [hq']); omega
    · rw [hq', hpos, hql]; omega
    · rw [hq', hpos2, hql2]; omega
  have ladd2 : (L.add su.width q).add su.width q2 = if su.width ≤ (L.add su.width q).col then
      ⟨(L.add su.width q).A ++ [(L.add su.width q).a], [q2], 1⟩
      else ⟨(L.add su.width q).A, (L.add su.width q).a ++ [q2], (L.add su.width q).col + 1⟩ := by
    conv => lhs; unfold Lay.add
    rw [if_neg (by simp [hn2]), hw2]
    by_cases hW : su.width ≤ (L.add su.width q).col
    · rw [if_pos (by unfold Lay.add at hW; omega), if_pos hW]; unfold Lay.add; rfl
    · rw [if_neg (by unfold Lay.add at hW; omega), if_neg hW]; unfold Lay.add; rfl
  by_cases hwr : (r1.2 || r2.2) = true
  · rw [fin, if_pos hwr]
    refine ⟨rel_lead d1 _, g2, ?_, by show r2.1.pos + _ = r2.1.index + 1; rw [d2, d3, h.idx, hlen], by intro q' hq'; have := hdone q' hq'; rw [← d2] at this; exact this, by show _ = r2.1.index + 1; rw [d2]; exact hnext, c2⟩
    show LeadOk su.width total _ _ r2.1.col
    intro hW2
    rw [d1.col]
    by_cases hW : su.width ≤ L.col
    · have la : L.add su.width q = ⟨L.A ++ [L.a], [q], 1⟩ := by rw [ladd, if_pos hW]
      rw [la] at ladd2 ⊢
      rw [if_neg (by dsimp only; omega)] at ladd2
      rw [ladd2]
      refine ⟨fun hG => absurd (goes_snoc.2 hne) hG, fun _ => ?_⟩
      simp [startPos, hqc, hqc2, hpos, hpos2]
    · have la : L.add su.width q = ⟨L.A, L.a ++ [q], L.col + 1⟩ := by rw [ladd, if_neg hW]
      have hW1 : su.width ≤ L.col + 1 := by
        rw [b4, d4, la] at hwr
        simp [hW] at hwr; exact hwr
      rw [la] at ladd2 ⊢
      rw [if_pos (by dsimp only; exact hW1)] at ladd2
      rw [ladd2]
      have : ¬ Ends (L.a ++ [q]) := by rw [ends_snoc, hn]; simp
      refine ⟨fun hG => absurd (goes_snoc.2 this) hG, fun _ => ?_⟩
      simp [startPos, hqc2]
  · rw [fin, if_neg hwr]
    refine ⟨d1, g2, ?_, by show r2.1.pos + _ = r2.1.index + 1; rw [d2, d3, h.idx, hlen], by intro q' hq'; have := hdone q' hq'; rw [← d2] at this; exact this, by show _ = r2.1.index + 1; rw [d2]; exact hnext, c2⟩
    show LeadOk su.width total _ _ r2.1.d.lead
    rw [b4, d4] at hwr
    simp at hwr
    obtain ⟨hW, hW1⟩ := hwr
    have hW : ¬ su.width ≤ L.col := by omega
    have la : L.add su.width q = ⟨L.A, L.a ++ [q], L.col + 1⟩ := by rw [ladd, if_neg hW]
    rw [d5, if_neg (by omega), b5, if_neg hW, ladd2, if_neg (by omega), la]
    show LeadOk su.width total L.A ((L.a ++ [q]) ++ [q2]) s.d.lead
    by_cases ha : L.a = []
    · exact lead_any h.lead (good_goes h.good ha)
    · have := lead_snoc (q := q) h.lead (good_goes h.good) (by rw [hpos]; exact hposne)
      refine lead_snoc this (fun h => by simp at h) ?_
      intro q' t ht
      rw [hpos2]
      cases hL : L.a with
      | nil => exact absurd hL ha
      | cons q0 t0 =>
        rw [hL] at ht
        simp at ht
        rw [← ht.1]
        exact hposne q0 t0 hL

end Clink.Display
