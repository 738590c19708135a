import Verif.Proof.Glyph

/-!
Proofs about `ellipsify` and `ellipsify_ex`.
-/

namespace Clink.Ellipsify

open Utf (IsText specUtf8)
open Doskey (peek next between)
open Doskey.Spec (flat)
open Ecma48 (flat_cons flat_append Fresh bufferLimit Piece State nextCode)
open Ecma48.Spec (Code Printable Stop)
open Spec

variable {env : Env}

theorem clen_nonneg (expand : Bool) (w : Int) : 0 ≤ clen expand w := by
  unfold clen; split
  · split <;> omega
  · omega

theorem sum_nonneg {l : List Int} (h : ∀ x ∈ l, 0 ≤ x) : 0 ≤ l.sum := by
  induction l with
  | nil => simp
  | cons a l ih =>
    have := h a (by simp)
    have := ih (fun x hx => h x (by simp [hx]))
    simp; omega

theorem cells_nonneg (expand : Bool) (l : List Nat) : ∀ r ∈ cells env expand l, 0 ≤ r.2 := by
  intro r hr
  simp only [cells, List.mem_map] at hr
  obtain ⟨q, -, rfl⟩ := hr
  exact clen_nonneg _ _

theorem wcswidth_nonneg (expand : Bool) (l : List Nat) : 0 ≤ wcswidth env expand l := by
  apply sum_nonneg
  intro x hx
  simp only [List.mem_map] at hx
  obtain ⟨r, hr, rfl⟩ := hx
  exact cells_nonneg _ _ r hr

theorem cellCount_nonneg (expand : Bool) (l : List Nat) : 0 ≤ cellCount env expand l := by
  apply sum_nonneg
  intro x hx
  simp only [List.mem_map] at hx
  obtain ⟨p, -, rfl⟩ := hx
  split
  · exact wcswidth_nonneg _ _
  · omega

/-! ### Any bytes -/

/-- What holds for the loop on any text. -/
structure AccOk (limit e : Int) (a : Acc) : Prop where
  vis : 0 ≤ a.vis ∧ a.vis ≤ limit
  none : a.trunc = none → a.vis ≤ max (limit - e) 0
  some : ∀ v n, a.trunc = some (v, n) → 0 ≤ v ∧ v ≤ max (limit - e) 0

theorem rightRuns_ok {limit e : Int} (he : 0 ≤ e) (rs : List (List Nat × Int)) : ∀ (a : Acc), (∀ r ∈ rs, 0 ≤ r.2) → AccOk limit e a →
    (∃ a', rightRuns limit e rs a = .inl a' ∧ AccOk limit e a') ∨ (∃ v out, rightRuns limit e rs a = .inr (v, out) ∧ 0 ≤ v ∧ v ≤ max (limit - e) 0) := by
  induction rs with
  | nil => intro a _ h; exact .inl ⟨a, rfl, h⟩
  | cons r rs ih =>
    obtain ⟨t, w⟩ := r
    intro a hr h
    have hw : 0 ≤ w := hr (t, w) (by simp)
    obtain ⟨⟨hv1, hv2⟩, hn, hs⟩ := h
    rw [rightRuns]
    cases htr : a.trunc with
    | none =>
      have hn' := hn htr
      simp only [Option.isNone_none, Bool.true_and, decide_eq_true_eq]
      by_cases h1 : a.vis + w > limit
      · rw [if_pos h1, if_pos (by omega)]
        exact .inr ⟨_, _, rfl, hv1, hn'⟩
      · rw [if_neg h1]
        by_cases h2 : a.vis + w > limit - e
        · rw [if_pos h2]
          refine ih _ (fun r hr' => hr r (by simp [hr'])) ⟨⟨?_, ?_⟩, ?_, ?_⟩
          · simp only; omega
          · simp only; omega
          · intro h; simp at h
          · intro v n h; simp at h; obtain ⟨rfl, rfl⟩ := h; exact ⟨hv1, hn'⟩
        · rw [if_neg h2]
          refine ih _ (fun r hr' => hr r (by simp [hr'])) ⟨⟨?_, ?_⟩, ?_, ?_⟩
          · simp only; omega
          · simp only; omega
          · intro _; simp only; omega
          · intro v n h; simp at h
    | some q =>
      obtain ⟨v, n⟩ := q
      have hs' := hs v n htr
      simp only [Option.isNone_some, Bool.false_and, Bool.false_eq_true, if_false]
      by_cases h1 : a.vis + w > limit
      · rw [if_pos h1]; exact .inr ⟨_, _, rfl, hs'⟩
      · rw [if_neg h1]
        refine ih _ (fun r hr' => hr r (by simp [hr'])) ⟨⟨?_, ?_⟩, ?_, ?_⟩
        · simp only; omega
        · simp only; omega
        · intro h; simp at h
        · intro v' n' h; simp at h; obtain ⟨rfl, rfl⟩ := h; exact hs'

theorem rightPieces_ok (expand : Bool) {limit e : Int} (he : 0 ≤ e) (ps : List Piece) : ∀ (a : Acc), AccOk limit e a →
    (∃ a', rightPieces env expand limit e ps a = .inl a' ∧ AccOk limit e a') ∨
    (∃ v out, rightPieces env expand limit e ps a = .inr (v, out) ∧ 0 ≤ v ∧ v ≤ max (limit - e) 0) := by
  induction ps with
  | nil => intro a h; exact .inl ⟨a, rfl, h⟩
  | cons p ps ih =>
    intro a h
    rw [rightPieces, if_pos h.vis.2]
    by_cases hc : isChars p = true
    · rw [if_pos hc]
      rcases rightRuns_ok he (cells env expand p.text) a (cells_nonneg _ _) h with ⟨a', h1, h2⟩ | ⟨v, out, h1, h2⟩
      · rw [h1]; exact ih a' h2
      · rw [h1]; exact .inr ⟨v, out, rfl, h2⟩
    · rw [if_neg hc]
      exact ih _ ⟨h.vis, h.none, h.some⟩

theorem rightRuns_keep {limit e : Int} (rs : List (List Nat × Int)) : ∀ (a : Acc), (∀ r ∈ rs, 0 ≤ r.2) → a.vis + (rs.map (·.2)).sum ≤ limit →
    ∃ a', rightRuns limit e rs a = .inl a' ∧ a'.vis = a.vis + (rs.map (·.2)).sum := by
  induction rs with
  | nil => intro a _ _; exact ⟨a, rfl, by simp⟩
  | cons r rs ih =>
    obtain ⟨t, w⟩ := r
    intro a hr h
    have hr' : ∀ r ∈ rs, 0 ≤ r.2 := fun x hx => hr x (by simp [hx])
    have hs : 0 ≤ (rs.map (·.2)).sum := sum_nonneg (by
      intro x hx
      simp only [List.mem_map] at hx
      obtain ⟨r, h1, rfl⟩ := hx
      exact hr' r h1)
    simp only [List.map_cons, List.sum_cons] at h ⊢
    rw [rightRuns]
    rw [if_neg (by omega)]
    obtain ⟨a', h1, h2⟩ := ih { vis := a.vis + w, trunc := if a.trunc.isNone && a.vis + w > limit - e then some (a.vis, a.out.length) else a.trunc, out := a.out ++ t }
      hr' (by simp only; omega)
    exact ⟨a', h1, by rw [h2]; simp only; omega⟩

theorem rightPieces_keep (expand : Bool) {limit e : Int} (ps : List Piece) : ∀ (a : Acc),
    a.vis + (ps.map fun p => if isChars p then wcswidth env expand p.text else 0).sum ≤ limit →
    ∃ a', rightPieces env expand limit e ps a = .inl a' ∧ a'.vis = a.vis + (ps.map fun p => if isChars p then wcswidth env expand p.text else 0).sum := by
  induction ps with
  | nil => intro a _; exact ⟨a, rfl, by simp⟩
  | cons p ps ih =>
    intro a h
    have hs : 0 ≤ (ps.map fun p => if isChars p then wcswidth env expand p.text else 0).sum := sum_nonneg (by
      intro x hx
      simp only [List.mem_map] at hx
      obtain ⟨r, h1, rfl⟩ := hx
      split
      · exact wcswidth_nonneg _ _
      · omega)
    have hw := wcswidth_nonneg (env := env) expand p.text
    simp only [List.map_cons, List.sum_cons] at h ⊢
    rw [rightPieces]
    by_cases hc : isChars p = true
    · rw [if_pos hc] at h ⊢
      rw [if_pos (by omega), if_pos hc]
      obtain ⟨a', h1, h2⟩ := rightRuns_keep (limit := limit) (e := e) (cells env expand p.text) a (cells_nonneg _ _)
        (by have : wcswidth env expand p.text = ((cells env expand p.text).map (·.2)).sum := rfl; omega)
      rw [h1]
      have h2' : a'.vis = a.vis + wcswidth env expand p.text := h2
      obtain ⟨a2, h3, h4⟩ := ih a' (by omega)
      exact ⟨a2, h3, by rw [h4]; omega⟩
    · rw [if_neg hc] at h ⊢
      rw [if_pos (by omega), if_neg hc]
      obtain ⟨a2, h3, h4⟩ := ih { a with out := a.out ++ p.text } (by simp only; omega)
      exact ⟨a2, h3, by rw [h4]; simp only; omega⟩

/-- The reported width of a text that fits. -/
theorem ellipsify_keep (expand : Bool) (l : List Nat) {limit : Int} (h : cellCount env expand l ≤ limit) :
    (ellipsify env l limit expand).2 = cellCount env expand l := by
  obtain ⟨a, h1, h2⟩ := rightPieces_keep (env := env) expand (limit := limit) (e := 1) (pieces l) {} (by simp only [Int.zero_add]; exact h)
  rw [ellipsify, h1]
  simp only
  rw [h2]
  simp only [Int.zero_add]
  rfl

theorem leftLoop_ok {limit e : Int} (he : 0 ≤ e) (rs : List Run) : ∀ (done : List Run) (vis : Int) (trunc : Option (Int × List Run × List Run)),
    (∀ r ∈ rs, 0 ≤ r.cells) → 0 ≤ vis → vis ≤ limit → (trunc = none → vis ≤ max (limit - e) 0) → (∀ q, trunc = some q → 0 ≤ q.1 ∧ q.1 ≤ max (limit - e) 0) →
    (leftLoop limit e rs done vis trunc = none ∧ vis + (rs.map fun r => if r.chars then r.cells else 0).sum ≤ limit) ∨
    (∃ q, leftLoop limit e rs done vis trunc = some q ∧ 0 ≤ q.1 ∧ q.1 ≤ max (limit - e) 0) := by
  induction rs with
  | nil => intro done vis trunc _ _ h _ _; exact .inl ⟨rfl, by simpa using h⟩
  | cons r rs ih =>
    intro done vis trunc hr h0 hv hn hs
    have hr0 := hr r (by simp)
    have hr' : ∀ r ∈ rs, 0 ≤ r.cells := fun x hx => hr x (by simp [hx])
    rw [leftLoop, if_pos hv]
    by_cases hc : r.chars = true
    · rw [if_pos hc]
      simp only [List.map_cons, List.sum_cons, hc, if_true]
      cases htr : trunc with
      | none =>
        have hn' := hn htr
        simp only [Option.isNone_none, Bool.true_and, decide_eq_true_eq]
        by_cases h1 : vis + r.cells > limit
        · rw [if_pos h1, if_pos (by omega)]
          exact .inr ⟨_, rfl, h0, hn'⟩
        · rw [if_neg h1]
          by_cases h2 : vis + r.cells > limit - e
          · rw [if_pos h2]
            have := ih (r :: done) (vis + r.cells) (some (vis, (r :: rs).reverse, done)) hr' (by omega) (by omega) (by intro h; simp at h)
              (by intro q h; simp at h; subst h; exact ⟨h0, hn'⟩)
            rwa [Int.add_assoc] at this
          · rw [if_neg h2]
            have := ih (r :: done) (vis + r.cells) none hr' (by omega) (by omega) (by intro _; omega) (by intro q h; simp at h)
            rwa [Int.add_assoc] at this
      | some q =>
        have hs' := hs q htr
        simp only [Option.isNone_some, Bool.false_and, Bool.false_eq_true, if_false]
        by_cases h1 : vis + r.cells > limit
        · rw [if_pos h1]; exact .inr ⟨q, rfl, hs'⟩
        · rw [if_neg h1]
          have := ih (r :: done) (vis + r.cells) (some q) hr' (by omega) (by omega) (by intro h; simp at h) (by intro q' h; simp at h; subst h; exact hs')
          rwa [Int.add_assoc] at this
    · rw [if_neg hc]
      simp only [List.map_cons, List.sum_cons, if_neg hc, Int.zero_add]
      exact ih _ _ _ hr' h0 hv hn hs

theorem charRuns_cells (rs : List (List Nat × Int)) : ∀ i, (charRuns i rs).map (fun r => if r.chars then r.cells else 0) = rs.map (·.2) := by
  induction rs with
  | nil => intro i; rfl
  | cons r rs ih => obtain ⟨t, w⟩ := r; intro i; simp [charRuns, ih]

theorem charRuns_nonneg (rs : List (List Nat × Int)) (h : ∀ r ∈ rs, 0 ≤ r.2) : ∀ i, ∀ r ∈ charRuns i rs, 0 ≤ r.cells := by
  induction rs with
  | nil => intro i r hr; simp [charRuns] at hr
  | cons q rs ih =>
    obtain ⟨t, w⟩ := q
    intro i r hr
    simp only [charRuns, List.mem_cons] at hr
    rcases hr with rfl | hr
    · exact h (t, w) (by simp)
    · exact ih (fun x hx => h x (by simp [hx])) _ r hr

theorem leftRuns_cells (expand : Bool) (n : Nat) (ps : List (Piece × List Nat)) : ∀ prev,
    ((leftRuns env expand n prev ps).map fun r => if r.chars then r.cells else 0).sum =
      ((ps.map (·.1)).map fun p => if isChars p then wcswidth env expand p.text else 0).sum := by
  induction ps with
  | nil => intro prev; rfl
  | cons q ps ih =>
    obtain ⟨p, rest⟩ := q
    intro prev
    rw [leftRuns]
    simp only [List.map_append, List.sum_append, ih, List.map_cons, List.sum_cons]
    by_cases hc : isChars p = true
    · simp only [hc, if_true, charRuns_cells]; rfl
    · simp [hc]

theorem leftRuns_nonneg (expand : Bool) (n : Nat) (ps : List (Piece × List Nat)) : ∀ prev, ∀ r ∈ leftRuns env expand n prev ps, 0 ≤ r.cells := by
  induction ps with
  | nil => intro prev r hr; simp [leftRuns] at hr
  | cons q ps ih =>
    obtain ⟨p, rest⟩ := q
    intro prev r hr
    rw [leftRuns, List.mem_append] at hr
    rcases hr with hr | hr
    · split at hr
      · exact charRuns_nonneg _ (cells_nonneg _ _) _ r hr
      · simp at hr; subst hr; simp
    · exact ih _ r hr

theorem sum_reverse (l : List Int) : l.reverse.sum = l.sum := by
  induction l with
  | nil => rfl
  | cons a l ih => simp [ih]; omega

/-- The empty text fits. -/
theorem pieces_nil : piecesAt [] = [] := by decide +kernel

theorem cellCount_nil (expand : Bool) : cellCount env expand [] = 0 := by simp [cellCount, pieces, pieces_nil]

theorem ex_nil (k : Nat) (limit : Int) (h : 0 ≤ limit) (mode : Mode) (el : Option (List Nat)) (expand : Bool) :
    ex env (k + 1) [] limit mode el expand = some ⟨[], 0, false⟩ := by
  rw [ex.eq_def]; simp only [cellCount_nil, if_pos h]

/-- What any call comes to. -/
def Bounded (limit : Int) (r : Option Res) : Prop := ∃ q, r = some q ∧ 0 ≤ q.width ∧ q.width ≤ limit

theorem ecells_nonneg (el : Option (List Nat)) : 0 ≤ ellCells env el := by
  cases el with
  | none => exact (by omega : (0 : Int) ≤ 1)
  | some e => exact cellCount_nonneg _ _

theorem accOk_init {limit e : Int} (h : 0 ≤ limit) : AccOk limit e {} := ⟨⟨by simp, h⟩, fun _ => by simp; omega, by simp⟩

/-- The ellipsis itself. -/
theorem ex_ellipsis (k : Nat) (l : List Nat) (limit : Int) (h : 0 ≤ limit) (expand : Bool) : Bounded limit (ex env (k + 2) l limit .right (some []) expand) := by
  rw [show k + 2 = (k + 1) + 1 from rfl, ex.eq_def]
  simp only
  by_cases ht : cellCount env expand l ≤ limit
  · rw [if_pos ht]; exact ⟨_, rfl, cellCount_nonneg _ _, ht⟩
  · rw [if_neg ht]
    rcases rightPieces_ok (env := env) expand (limit := limit) (ecells_nonneg (some [])) (pieces l) {} (accOk_init h) with ⟨a, h1, h2⟩ | ⟨v, out, h1, h2⟩
    · rw [h1]; exact ⟨_, rfl, h2.vis⟩
    · rw [h1]
      have := ecells_nonneg (env := env) (some [])
      simp only
      by_cases hv : limit - v > 0
      · rw [if_pos hv, Option.getD_some, ex_nil k _ (by omega)]
        exact ⟨_, rfl, by simp; omega, by simp; omega⟩
      · rw [if_neg hv]; exact ⟨_, rfl, by simp; omega, by simp; omega⟩

theorem ex_side (k : Nat) (l : List Nat) (limit : Int) (h : 0 ≤ limit) (mode : Mode) (hm : mode ≠ .path) (el : Option (List Nat)) (expand : Bool) :
    Bounded limit (ex env (k + 3) l limit mode el expand) := by
  rw [show k + 3 = (k + 2) + 1 from rfl, ex.eq_def]
  simp only
  by_cases ht : cellCount env expand l ≤ limit
  · rw [if_pos ht]; exact ⟨_, rfl, cellCount_nonneg _ _, ht⟩
  · rw [if_neg ht]
    have he := ecells_nonneg (env := env) el
    cases mode with
    | path => exact absurd rfl hm
    | right =>
      simp only
      rcases rightPieces_ok (env := env) expand (limit := limit) he (pieces l) {} (accOk_init h) with ⟨a, h1, h2⟩ | ⟨v, out, h1, h2⟩
      · rw [h1]; exact ⟨_, rfl, h2.vis⟩
      · rw [h1]
        simp only
        by_cases hv : limit - v > 0
        · rw [if_pos hv]
          obtain ⟨q, h3, h4⟩ := ex_ellipsis (env := env) k (el.getD ellipsis) (limit - v) (by omega) expand
          rw [h3]
          exact ⟨_, rfl, by simp; omega, by simp; omega⟩
        · rw [if_neg hv]; exact ⟨_, rfl, by simp; omega, by simp; omega⟩
    | left =>
      simp only
      rcases leftLoop_ok he (leftRuns env expand l.length 0 (piecesAt l)).reverse [] 0 none (fun r hr => leftRuns_nonneg _ _ _ _ r (List.mem_reverse.1 hr))
        (by omega) h (fun _ => by omega) (by simp) with ⟨h1, h2⟩ | ⟨⟨v, before, after⟩, h1, h2⟩
      · exfalso
        rw [List.map_reverse, sum_reverse, leftRuns_cells] at h2
        apply ht
        have : cellCount env expand l = (((piecesAt l).map (·.1)).map fun p => if isChars p then wcswidth env expand p.text else 0).sum := rfl
        omega
      · rw [h1]
        simp only at h2 ⊢
        by_cases hv : limit - v > 0
        · rw [if_pos hv]
          obtain ⟨q, h3, h4⟩ := ex_ellipsis (env := env) k (el.getD ellipsis) (limit - v) (by omega) expand
          rw [h3]
          exact ⟨_, rfl, by simp; omega, by simp; omega⟩
        · rw [if_neg hv]; exact ⟨_, rfl, by simp; omega, by simp; omega⟩

theorem ex_all (k : Nat) (l : List Nat) (limit : Int) (h : 0 ≤ limit) (mode : Mode) (el : Option (List Nat)) (expand : Bool) :
    Bounded limit (ex env (k + 4) l limit mode el expand) := by
  by_cases hm : mode = .path
  · subst hm
    rw [show k + 4 = (k + 3) + 1 from rfl, ex.eq_def]
    simp only
    by_cases ht : cellCount env expand l ≤ limit
    · rw [if_pos ht]; exact ⟨_, rfl, cellCount_nonneg _ _, ht⟩
    · rw [if_neg ht]
      have hf := ex_side (env := env) k l limit h .right (by simp) el false
      split
      · rename_i hd
        obtain ⟨q, h1, h2⟩ := ex_side (env := env) k (l.drop ((driveEnd l.length (piecesAt l) 0 0).getD 0))
          (limit - cellCount env false (l.take ((driveEnd l.length (piecesAt l) 0 0).getD 0))) (by omega) .left (by simp) el false
        rw [h1, Option.bind_some]
        split
        · have := cellCount_nonneg (env := env) false (l.take ((driveEnd l.length (piecesAt l) 0 0).getD 0))
          exact ⟨_, rfl, by simp; omega, by simp; omega⟩
        · exact hf
      · exact hf
  · exact ex_side (env := env) (k + 1) l limit h mode hm el expand

/-- More depth makes no difference. -/
theorem ex_mono (k : Nat) : ∀ (l : List Nat) (limit : Int) (mode : Mode) (el : Option (List Nat)) (expand : Bool) (r : Res),
    ex env k l limit mode el expand = some r → ex env (k + 1) l limit mode el expand = some r := by
  induction k with
  | zero => intro l limit mode el expand r h; rw [ex.eq_def] at h; simp at h
  | succ k ih =>
    intro l limit mode el expand r h
    rw [ex.eq_def] at h ⊢
    simp only at h ⊢
    by_cases ht : cellCount env expand l ≤ limit
    · rw [if_pos ht] at h ⊢; exact h
    · rw [if_neg ht] at h ⊢
      cases mode with
      | right =>
        simp only at h ⊢
        cases hr : rightPieces env expand limit (ellCells env el) (pieces l) {} with
        | inl a => rw [hr] at h; exact h
        | inr q =>
          obtain ⟨v, out⟩ := q
          rw [hr] at h
          simp only at h ⊢
          by_cases hv : limit - v > 0
          · rw [if_pos hv] at h ⊢
            rw [Option.map_eq_some_iff] at h ⊢
            obtain ⟨a, h1, h2⟩ := h
            exact ⟨a, ih _ _ _ _ _ _ h1, h2⟩
          · rw [if_neg hv] at h ⊢; exact h
      | left =>
        simp only at h ⊢
        cases hr : leftLoop limit (ellCells env el) (leftRuns env expand l.length 0 (piecesAt l)).reverse [] 0 none with
        | none => rw [hr] at h; exact h
        | some q =>
          obtain ⟨v, before, after⟩ := q
          rw [hr] at h
          simp only at h ⊢
          by_cases hv : limit - v > 0
          · rw [if_pos hv] at h ⊢
            rw [Option.map_eq_some_iff] at h ⊢
            obtain ⟨a, h1, h2⟩ := h
            exact ⟨a, ih _ _ _ _ _ _ h1, h2⟩
          · rw [if_neg hv] at h ⊢; exact h
      | path =>
        simp only at h ⊢
        split at h
        · rename_i hd
          rw [if_pos hd]
          rw [Option.bind_eq_some_iff] at h ⊢
          obtain ⟨a, h1, h2⟩ := h
          refine ⟨a, ih _ _ _ _ _ _ h1, ?_⟩
          split at h2
          · rename_i hc; rw [if_pos hc]; exact h2
          · rename_i hc; rw [if_neg hc]; exact ih _ _ _ _ _ _ h2
        · rename_i hd
          rw [if_neg hd]
          exact ih _ _ _ _ _ _ h

theorem ellipsify_limit (l : List Nat) {limit : Int} (h : 1 ≤ limit) (he : cellCount env false ellipsis = 1) (expand : Bool) :
    0 ≤ (ellipsify env l limit expand).2 ∧ (ellipsify env l limit expand).2 ≤ limit := by
  rw [ellipsify]
  rcases rightPieces_ok (env := env) expand (limit := limit) (e := 1) (by omega) (pieces l) {} (accOk_init (by omega)) with ⟨a, h1, h2⟩ | ⟨v, out, h1, h2⟩
  · rw [h1]; exact h2.vis
  · rw [h1]; simp only [he]; omega

end Clink.Ellipsify
