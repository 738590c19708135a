import Verif.Proof.Ellipsify

/-!
Proofs about `ellipsify` and `ellipsify_ex` for texts whose codes are complete.
-/

namespace Clink.Ellipsify

open Utf (IsText specUtf8)
open Doskey (peek next between)
open Doskey.Spec (flat)
open Ecma48 (flat_cons flat_append Fresh bufferLimit Piece State nextCode)
open Ecma48.Spec (Code Printable Stop Kind)
open Spec

variable {env : Env}

def glyphItem (g : List Nat × Int) : Item := .glyph g.1 g.2

theorem cells_item (expand : Bool) (g : List Nat × Int) : (glyphItem g).cells expand = clen expand g.2 := rfl

theorem width_append (expand : Bool) (a b : List Item) : width expand (a ++ b) = width expand a + width expand b := by simp [width]
theorem width_cons (expand : Bool) (i : Item) (b : List Item) : width expand (i :: b) = i.cells expand + width expand b := by simp [width]
theorem width_nil (expand : Bool) : width expand [] = 0 := rfl
theorem text_append (a b : List Item) : text (a ++ b) = text a ++ text b := by simp [text]
theorem text_cons (i : Item) (b : List Item) : text (i :: b) = i.text ++ text b := by simp [text]

theorem item_nonneg (expand : Bool) (i : Item) : 0 ≤ i.cells expand := by
  cases i with
  | code w => simp [Item.cells]
  | glyph w n => exact clen_nonneg expand n

theorem width_nonneg (expand : Bool) (is : List Item) : 0 ≤ width expand is := by
  apply sum_nonneg
  intro x hx
  simp only [List.mem_map] at hx
  obtain ⟨i, -, rfl⟩ := hx
  exact item_nonneg _ _

theorem width_glyphs (expand : Bool) (gs : List (List Nat × Int)) : width expand (gs.map glyphItem) = cellsOf expand gs := by
  induction gs with
  | nil => rfl
  | cons g gs ih => rw [List.map_cons, width_cons, ih]; simp [cellsOf, cells_item]

theorem text_glyphs (gs : List (List Nat × Int)) : text (gs.map glyphItem) = (gs.map (·.1)).flatten := by
  induction gs with
  | nil => rfl
  | cons g gs ih => rw [List.map_cons, text_cons, ih]; simp [glyphItem, Item.text]

theorem width_codes (expand : Bool) (is : List Item) (h : ∀ i ∈ is, i.isGlyph = false) : width expand is = 0 := by
  induction is with
  | nil => rfl
  | cons i is ih =>
    have hi := h i (by simp)
    rw [width_cons, ih (fun x hx => h x (by simp [hx]))]
    cases i with
    | code w => rfl
    | glyph w n => simp [Item.isGlyph] at hi

theorem doc_text {cs : List Nat} {is : List Item} (h : Doc env cs is) : text is = cs := by
  induction h with
  | nil => rfl
  | code h1 h2 ih => rw [text_cons, ih]; rfl
  | text h1 h2 h3 h4 h5 ih => rw [text_append, ih, show (fun g : List Nat × Int => Item.glyph g.1 g.2) = glyphItem from rfl, text_glyphs, glyphs_text h4]

theorem peek_stop {rest : List Nat} (ht : ∀ c ∈ rest, IsText c) (hs : Stop rest) : peek (flat rest) = 0 ∨ peek (flat rest) < 0x20 := by
  cases rest with
  | nil => exact .inl rfl
  | cons c r =>
    right
    rw [peek_cons (ht c (by simp))]
    exact hs c rfl

theorem points_flat (cs : List Nat) : (∀ c ∈ cs, IsText c) → points (flat cs) = cs := by
  induction cs with
  | nil => intro _; rw [points]; simp [peek_nil]
  | cons c cs ih =>
    intro ht
    have tc := ht c (by simp)
    have := tc.1
    rw [points, peek_cons tc, next_cons tc, dif_neg (by omega), ih (fun x hx => ht x (by simp [hx]))]

/-- The pieces that are read, and the items. -/
inductive Match (env : Env) (expand : Bool) : List (Piece × List Nat) → List Nat → List Item → Prop
  | nil : Match env expand [] [] []
  | code {p w rest ps is} : isChars p = false → p.text = flat w → Match env expand ps rest is →
      Match env expand ((p, flat rest) :: ps) (w ++ rest) (.code w :: is)
  | text {p t rest} {gs : List (List Nat × Int)} {ps is} : isChars p = true → p.text = flat t → t ≠ [] → points p.text = t → (gs.map (·.1)).flatten = t →
      cells env expand p.text = gs.map (fun g => (flat g.1, clen expand g.2)) → Match env expand ps rest is →
      Match env expand ((p, flat rest) :: ps) (t ++ rest) (gs.map glyphItem ++ is)

theorem code_chars {k : Kind} {x : Nat} {w : List Nat} (h : Code k x w) : k ≠ .chars := by cases h <;> simp

theorem match_doc (hz : env.variant 0 = false) (expand : Bool) {cs : List Nat} {is : List Item} (h : Doc env cs is) :
    ∀ (s : State), Fresh s → (∀ c ∈ cs, IsText c) → (flat cs).length ≤ bufferLimit →
    ∃ ps, walkAtFrom s 0 (flat cs) = some ps ∧ Match env expand ps cs is := by
  induction h with
  | nil =>
    intro s hf _ _
    refine ⟨[], ?_, .nil⟩
    rw [walkAtFrom]
    obtain ⟨st, b, cl, t, x⟩ := s
    obtain ⟨rfl, rfl⟩ := hf
    simp [nextCode, Ecma48.loop, flat, show peek [] = 0 from rfl]
  | @code k x w rest is h1 h2 ih =>
    intro s hf ht hl
    have hl' := hl
    rw [flat_append, List.length_append] at hl'
    obtain ⟨s', hf', hn⟩ := Ecma48.next_code hf h1 (fun c hc => ht c (by simp [hc])) (by omega) (flat rest)
    obtain ⟨ps, hw, hm⟩ := ih s' hf' (fun c hc => ht c (by simp [hc])) (by omega)
    refine ⟨(⟨flat w, some (Ecma48.typ k), x⟩, flat rest) :: ps, ?_, ?_⟩
    · rw [flat_append, walkAtFrom, hn]
      simp only
      rw [if_pos (by
        have := Ecma48.flat_ne (Ecma48.code_ne h1)
        have := List.length_pos_iff.2 this
        simp; omega), hw]
      rfl
    · refine .code ?_ rfl hm
      have := code_chars h1
      cases k <;> simp_all [isChars, Ecma48.typ]
  | @text t rest gs is hne hp hs hg hd ih =>
    intro s hf ht hl
    have hl' := hl
    rw [flat_append, List.length_append] at hl'
    have htt : ∀ c ∈ t, IsText c := fun c hc => ht c (by simp [hc])
    have htr : ∀ c ∈ rest, IsText c := fun c hc => ht c (by simp [hc])
    obtain ⟨s', hf', hn⟩ := Ecma48.next_text hf hne htt hp (by omega) (peek_stop htr hs)
    obtain ⟨ps, hw, hm⟩ := ih s' hf' htr (by omega)
    refine ⟨(⟨flat t, some .chars, s.code⟩, flat rest) :: ps, ?_, ?_⟩
    · rw [flat_append, walkAtFrom, hn]
      simp only
      rw [if_pos (by
        have := Ecma48.flat_ne hne
        have := List.length_pos_iff.2 this
        simp; omega), hw]
      rfl
    · refine .text rfl rfl hne (points_flat t htt) (glyphs_text hg) ?_ hm
      simp only [cells]
      rw [runs_go hz hg htt, List.map_map]
      rfl

theorem fresh_init : Fresh {} := ⟨rfl, rfl⟩

theorem piecesAt_doc (hz : env.variant 0 = false) (expand : Bool) {cs : List Nat} {is : List Item} (h : Doc env cs is) (ht : ∀ c ∈ cs, IsText c)
    (hl : (flat cs).length ≤ bufferLimit) : Match env expand (piecesAt (flat cs)) cs is := by
  obtain ⟨ps, h1, h2⟩ := match_doc hz expand h {} fresh_init ht hl
  rw [piecesAt, h1]
  exact h2

theorem match_width {expand : Bool} {ps : List (Piece × List Nat)} {cs : List Nat} {is : List Item} (h : Match env expand ps cs is) :
    ((ps.map (·.1)).map fun p => if isChars p then wcswidth env expand p.text else 0).sum = width expand is := by
  induction h with
  | nil => rfl
  | code h1 h2 h3 ih => simp only [List.map_cons, List.sum_cons, ih, h1, width_cons]; simp [Item.cells]
  | @text p t rest gs ps is h1 h2 h3 h4 h5 h6 h7 ih =>
    simp only [List.map_cons, List.sum_cons, ih, h1, if_true, width_append, width_glyphs]
    rw [wcswidth, h6, List.map_map]
    rfl

theorem cellCount_doc (hz : env.variant 0 = false) (expand : Bool) {cs : List Nat} {is : List Item} (h : Doc env cs is) (ht : ∀ c ∈ cs, IsText c)
    (hl : (flat cs).length ≤ bufferLimit) : cellCount env expand (flat cs) = width expand is :=
  match_width (piecesAt_doc hz expand h ht hl)

/-! ### From the left -/

/-- Where a text is cut, with the room that is wanted behind it. -/
structure Cut (expand : Bool) (is : List Item) (limit e : Int) (before : List Item) (g : Item) (after : List Item) : Prop where
  split : is = before ++ g :: after
  glyph : g.isGlyph
  full : width expand before + g.cells expand > limit - e
  room : width expand before ≤ limit - e ∨ ∀ i ∈ before, i.isGlyph = false

structure AccAt (expand : Bool) (limit e : Int) (pre : List Item) (a : Acc) : Prop where
  vis : a.vis = width expand pre
  le : width expand pre ≤ limit
  out : a.out = flat (text pre)
  none : a.trunc = none → width expand pre ≤ limit - e ∨ ∀ i ∈ pre, i.isGlyph = false
  some : ∀ v n, a.trunc = some (v, n) → ∃ before g after, Cut expand pre limit e before g after ∧ v = width expand before ∧ n = (flat (text before)).length

theorem Cut.more {expand : Bool} {is : List Item} {limit e : Int} {before after : List Item} {g : Item} (h : Cut expand is limit e before g after) (more : List Item) :
    Cut expand (is ++ more) limit e before g (after ++ more) := ⟨by rw [h.split]; simp, h.glyph, h.full, h.room⟩

/-- What the loop comes to. -/
def RightResult (expand : Bool) (limit e : Int) (is : List Item) (r : Acc ⊕ (Int × List Nat)) : Prop :=
  (∃ a, r = .inl a ∧ AccAt expand limit e is a) ∨
  (∃ before g after, Cut expand is limit e before g after ∧ limit < width expand is ∧ r = .inr (width expand before, flat (text before)))

theorem rightRuns_at (expand : Bool) {limit e : Int} (he : 0 ≤ e) (gs : List (List Nat × Int)) : ∀ (pre : List Item) (a : Acc), AccAt expand limit e pre a →
    RightResult expand limit e (pre ++ gs.map glyphItem) (rightRuns limit e (gs.map fun g => (flat g.1, clen expand g.2)) a) := by
  induction gs with
  | nil => intro pre a h; exact .inl ⟨a, rfl, by simpa using h⟩
  | cons g gs ih =>
    intro pre a h
    have hc := clen_nonneg expand g.2
    have hgl : (glyphItem g).isGlyph = true := rfl
    have hrest := width_nonneg expand (gs.map glyphItem)
    have hw : width expand (pre ++ (g :: gs).map glyphItem) = width expand pre + (clen expand g.2 + width expand (gs.map glyphItem)) := by
      rw [width_append, List.map_cons, width_cons, cells_item]
    have hsplit : pre ++ (g :: gs).map glyphItem = (pre ++ [glyphItem g]) ++ gs.map glyphItem := by simp
    have hnew : ∀ trunc, (trunc = none → width expand pre + clen expand g.2 ≤ limit - e) →
        (∀ v n, trunc = some (v, n) → ∃ before g' after, Cut expand (pre ++ [glyphItem g]) limit e before g' after ∧ v = width expand before ∧ n = (flat (text before)).length) →
        width expand pre + clen expand g.2 ≤ limit →
        AccAt expand limit e (pre ++ [glyphItem g]) { vis := a.vis + clen expand g.2, trunc := trunc, out := a.out ++ flat g.1 } := by
      intro trunc h1 h2 h3
      have hwp : width expand (pre ++ [glyphItem g]) = width expand pre + clen expand g.2 := by
        rw [width_append, width_cons, cells_item, width_nil]; omega
      refine ⟨by rw [hwp, h.vis], by rw [hwp]; exact h3, ?_, fun ht => .inl (by rw [hwp]; exact h1 ht), h2⟩
      rw [h.out, text_append, flat_append]
      congr 1
      simp [text, glyphItem, Item.text]
    rw [show (g :: gs).map (fun g => (flat g.1, clen expand g.2)) = (flat g.1, clen expand g.2) :: gs.map (fun g => (flat g.1, clen expand g.2)) from rfl,
      rightRuns]
    cases htr : a.trunc with
    | none =>
      have hn := h.none htr
      have hcut : a.vis + clen expand g.2 > limit - e → Cut expand (pre ++ [glyphItem g]) limit e pre (glyphItem g) [] := by
        intro hh
        exact ⟨rfl, hgl, by rw [cells_item, ← h.vis]; exact hh, hn⟩
      simp only [Option.isNone_none, Bool.true_and, decide_eq_true_eq]
      by_cases h1 : a.vis + clen expand g.2 > limit
      · rw [if_pos h1, if_pos (by omega)]
        refine .inr ⟨pre, glyphItem g, gs.map glyphItem, ?_, by rw [hw, ← h.vis]; omega, ?_⟩
        · rw [hsplit]; exact (hcut (by omega)).more _
        · simp [h.out, h.vis]
      · rw [if_neg h1]
        by_cases h2 : a.vis + clen expand g.2 > limit - e
        · rw [if_pos h2]
          have := ih (pre ++ [glyphItem g]) _ (hnew (some (a.vis, a.out.length)) (by simp) (by
            intro v n hvn
            simp at hvn
            obtain ⟨rfl, rfl⟩ := hvn
            exact ⟨pre, glyphItem g, [], hcut h2, h.vis, by rw [h.out]⟩) (by rw [← h.vis]; omega))
          rw [hsplit]; exact this
        · rw [if_neg h2]
          have := ih (pre ++ [glyphItem g]) _ (hnew none (by intro _; rw [← h.vis]; omega) (by simp) (by rw [← h.vis]; omega))
          rw [hsplit]; exact this
    | some q =>
      obtain ⟨v, n⟩ := q
      obtain ⟨before, g', after, hcut, rfl, rfl⟩ := h.some v n htr
      simp only [Option.isNone_some, Bool.false_and, Bool.false_eq_true, if_false]
      by_cases h1 : a.vis + clen expand g.2 > limit
      · rw [if_pos h1]
        refine .inr ⟨before, g', after ++ (g :: gs).map glyphItem, hcut.more _, by rw [hw, ← h.vis]; omega, ?_⟩
        rw [h.out, hcut.split, text_append, flat_append, List.take_left]
      · rw [if_neg h1]
        have := ih (pre ++ [glyphItem g]) _ (hnew (some (width expand before, (flat (text before)).length)) (by simp) (by
            intro v n hvn
            simp at hvn
            obtain ⟨rfl, rfl⟩ := hvn
            exact ⟨before, g', _, hcut.more _, rfl, rfl⟩) (by rw [← h.vis]; omega))
        rw [hsplit]; exact this

theorem rightPieces_at (expand : Bool) {limit e : Int} (he : 0 ≤ e) {ps : List (Piece × List Nat)} {cs : List Nat} {is : List Item} (hm : Match env expand ps cs is) :
    ∀ (pre : List Item) (a : Acc), AccAt expand limit e pre a →
    RightResult expand limit e (pre ++ is) (rightPieces env expand limit e (ps.map (·.1)) a) := by
  induction hm with
  | nil => intro pre a h; exact .inl ⟨a, rfl, by simpa using h⟩
  | @code p w rest ps is h1 h2 h3 ih =>
    intro pre a h
    rw [List.map_cons, rightPieces, if_pos (by rw [h.vis]; exact h.le), if_neg (by simp [h1])]
    have := ih (pre ++ [.code w]) { a with out := a.out ++ p.text } ⟨by
        rw [width_append, width_cons, width_nil]; simp [Item.cells, h.vis], by
        rw [width_append, width_cons, width_nil]; simp [Item.cells, h.le], by
        rw [text_append, flat_append, h.out, h2]; simp [text, Item.text], by
        intro hn
        rcases h.none hn with hh | hh
        · left; rw [width_append, width_cons, width_nil]; simpa [Item.cells] using hh
        · right
          intro i hi
          rcases List.mem_append.1 hi with hi | hi
          · exact hh i hi
          · simp at hi; subst hi; rfl, by
        intro v n hvn
        obtain ⟨before, g, after, hc, h4⟩ := h.some v n hvn
        exact ⟨before, g, _, hc.more _, h4⟩⟩
    rwa [List.append_assoc] at this
  | @text p t rest gs ps is h1 h2 h3 h4 h5 h6 h7 ih =>
    intro pre a h
    rw [List.map_cons, rightPieces, if_pos (by rw [h.vis]; exact h.le), if_pos h1, h6]
    rcases rightRuns_at expand he gs pre a h with ⟨a', h8, h9⟩ | ⟨before, g, after, h8, h9, h10⟩
    · rw [h8]
      have := ih _ a' h9
      rwa [List.append_assoc] at this
    · rw [h10]
      have hr := width_nonneg expand is
      refine .inr ⟨before, g, after ++ is, ?_, ?_, rfl⟩
      · rw [← List.append_assoc]; exact h8.more _
      · rw [← List.append_assoc, width_append]; omega

theorem accAt_init (expand : Bool) {limit e : Int} (h : 0 ≤ limit) : AccAt expand limit e [] {} :=
  ⟨rfl, h, rfl, fun _ => .inr (by simp), by simp⟩

/-! ### From the right -/

def runsAt (expand : Bool) : Nat → List Item → List Run
  | _, [] => []
  | k, i :: is => ⟨k, (flat i.text).length, i.cells expand, i.isGlyph⟩ :: runsAt expand (k + (flat i.text).length) is

theorem runsAt_append (expand : Bool) (a : List Item) : ∀ (k : Nat) (b : List Item),
    runsAt expand k (a ++ b) = runsAt expand k a ++ runsAt expand (k + (flat (text a)).length) b := by
  induction a with
  | nil => intro k b; simp [runsAt, text, flat]
  | cons i a ih =>
    intro k b
    rw [List.cons_append, runsAt, ih, runsAt, List.cons_append, text_cons, flat_append, List.length_append, Nat.add_assoc]

theorem charRuns_at (expand : Bool) (gs : List (List Nat × Int)) : ∀ k,
    charRuns k (gs.map fun g => (flat g.1, clen expand g.2)) = runsAt expand k (gs.map glyphItem) := by
  induction gs with
  | nil => intro k; rfl
  | cons g gs ih =>
    intro k
    rw [List.map_cons, charRuns, ih, List.map_cons, runsAt]
    rfl

theorem leftRuns_at (expand : Bool) (n : Nat) {ps : List (Piece × List Nat)} {cs : List Nat} {is : List Item} (hm : Match env expand ps cs is) :
    (flat cs).length ≤ n → leftRuns env expand n (n - (flat cs).length) ps = runsAt expand (n - (flat cs).length) is := by
  induction hm with
  | nil => intro _; rfl
  | @code p w rest ps is h1 h2 h3 ih =>
    intro hn
    rw [flat_append, List.length_append] at hn ⊢
    rw [leftRuns, if_neg (by simp [h1]), ih (by omega), runsAt, h2]
    simp only [List.cons_append, List.nil_append]
    rw [show n - ((flat w).length + (flat rest).length) + (flat (Item.text (.code w))).length = n - (flat rest).length by simp only [Item.text]; omega]
    rfl
  | @text p t rest gs ps is h1 h2 h3 h4 h5 h6 h7 ih =>
    intro hn
    rw [flat_append, List.length_append] at hn ⊢
    rw [leftRuns, if_pos h1, h6, charRuns_at, ih (by omega), runsAt_append, h2, text_glyphs, h5]
    rw [show n - (flat rest).length - (flat t).length = n - ((flat t).length + (flat rest).length) by omega]
    rw [show n - ((flat t).length + (flat rest).length) + (flat t).length = n - (flat rest).length by omega]

structure CutL (expand : Bool) (is : List Item) (limit e : Int) (before : List Item) (g : Item) (after : List Item) : Prop where
  split : is = before ++ g :: after
  glyph : g.isGlyph
  full : width expand after + g.cells expand > limit - e
  room : width expand after ≤ limit - e ∨ ∀ i ∈ after, i.isGlyph = false

/-- What the loop comes to: where it cuts, as runs. -/
def LeftAt (expand : Bool) (limit e : Int) (is : List Item) (q : Int × List Run × List Run) : Prop :=
  ∃ before g after, CutL expand is limit e before g after ∧
    q = (width expand after, runsAt expand 0 (before ++ [g]), runsAt expand (flat (text (before ++ [g]))).length after)

theorem leftLoop_at (expand : Bool) {limit e : Int} (he : 0 ≤ e) (rp : List Item) : ∀ (post : List Item) (trunc : Option (Int × List Run × List Run)),
    width expand post ≤ limit → (trunc = none → width expand post ≤ limit - e ∨ ∀ i ∈ post, i.isGlyph = false) →
    (∀ q, trunc = some q → LeftAt expand limit e (rp.reverse ++ post) q) →
    (leftLoop limit e (runsAt expand 0 rp.reverse).reverse (runsAt expand (flat (text rp.reverse)).length post) (width expand post) trunc = none ∧
      width expand (rp.reverse ++ post) ≤ limit) ∨
    (∃ q, leftLoop limit e (runsAt expand 0 rp.reverse).reverse (runsAt expand (flat (text rp.reverse)).length post) (width expand post) trunc = some q ∧
      LeftAt expand limit e (rp.reverse ++ post) q ∧ limit < width expand (rp.reverse ++ post)) := by
  induction rp with
  | nil => intro post trunc h _ _; exact .inl ⟨rfl, by simpa using h⟩
  | cons i rp ih =>
    intro post trunc hle hn hs
    have hi := item_nonneg expand i
    have hpre := width_nonneg expand rp.reverse
    have e1 : (i :: rp).reverse ++ post = rp.reverse ++ (i :: post) := by simp
    have hr : (runsAt expand 0 (i :: rp).reverse).reverse =
        ⟨(flat (text rp.reverse)).length, (flat i.text).length, i.cells expand, i.isGlyph⟩ :: (runsAt expand 0 rp.reverse).reverse := by
      rw [List.reverse_cons, runsAt_append, List.reverse_append]
      simp [runsAt]
    have hp : (⟨(flat (text rp.reverse)).length, (flat i.text).length, i.cells expand, i.isGlyph⟩ : Run) ::
        runsAt expand (flat (text (i :: rp).reverse)).length post = runsAt expand (flat (text rp.reverse)).length (i :: post) := by
      rw [runsAt]
      congr 2
      rw [List.reverse_cons, text_append, flat_append, List.length_append]
      simp [text]
    have hwi : width expand (i :: post) = width expand post + i.cells expand := by rw [width_cons]; omega
    rw [e1] at hs ⊢
    rw [hr, leftLoop, if_pos hle]
    simp only [hp]
    by_cases hg : i.isGlyph = true
    · rw [if_pos hg]
      have hcut : (width expand post ≤ limit - e ∨ ∀ j ∈ post, j.isGlyph = false) → width expand post + i.cells expand > limit - e →
          LeftAt expand limit e (rp.reverse ++ i :: post)
            (width expand post, ((⟨(flat (text rp.reverse)).length, (flat i.text).length, i.cells expand, i.isGlyph⟩ : Run) :: (runsAt expand 0 rp.reverse).reverse).reverse,
              runsAt expand (flat (text (i :: rp).reverse)).length post) := by
        intro hroom hh
        refine ⟨rp.reverse, i, post, ⟨rfl, hg, hh, hroom⟩, ?_⟩
        rw [← hr, List.reverse_reverse, List.reverse_cons]
      cases htr : trunc with
      | none =>
        have hn' := hn htr
        simp only [Option.isNone_none, Bool.true_and, decide_eq_true_eq]
        by_cases h1 : width expand post + i.cells expand > limit
        · rw [if_pos h1, if_pos (by omega)]
          exact .inr ⟨_, rfl, hcut hn' (by omega), by rw [width_append, hwi]; omega⟩
        · rw [if_neg h1]
          by_cases h2 : width expand post + i.cells expand > limit - e
          · rw [if_pos h2, ← hwi]
            exact ih (i :: post) _ (by omega) (by simp) (by intro q hq; simp only [Option.some.injEq] at hq; subst hq; exact hcut hn' h2)
          · rw [if_neg h2, ← hwi]
            exact ih (i :: post) none (by omega) (fun _ => .inl (by omega)) (by simp)
      | some q =>
        have hs' := hs q htr
        simp only [Option.isNone_some, Bool.false_and, Bool.false_eq_true, if_false]
        by_cases h1 : width expand post + i.cells expand > limit
        · rw [if_pos h1]; exact .inr ⟨q, rfl, hs', by rw [width_append, hwi]; omega⟩
        · rw [if_neg h1, ← hwi]
          exact ih (i :: post) (some q) (by omega) (by simp) (by intro q' hq; simp only [Option.some.injEq] at hq; subst hq; exact hs')
    · rw [if_neg hg]
      have hgf : i.isGlyph = false := by simpa using hg
      have hc0 : i.cells expand = 0 := by
        cases i with
        | code w => rfl
        | glyph w n => simp [Item.isGlyph] at hgf
      have heq : width expand post = width expand (i :: post) := by rw [hwi, hc0]; omega
      rw [heq]
      refine ih (i :: post) trunc (by omega) ?_ hs
      intro ht
      rcases hn ht with h | h
      · exact .inl (by omega)
      · right
        intro j hj
        simp at hj
        rcases hj with rfl | hj
        · exact hgf
        · exact h j hj

theorem runsAt_codes (expand : Bool) (is : List Item) : ∀ (pre : List Nat) (tail : List Nat),
    (((runsAt expand (flat pre).length is).filter fun r => !r.chars).map (·.text (flat pre ++ (flat (text is) ++ tail)))).flatten = flat (text (codes is)) := by
  induction is with
  | nil => intro pre tail; rfl
  | cons i is ih =>
    intro pre tail
    have ih' := ih (pre ++ i.text) tail
    have e1 : flat (pre ++ i.text) ++ (flat (text is) ++ tail) = flat pre ++ (flat (text (i :: is)) ++ tail) := by
      rw [text_cons, flat_append, flat_append]; simp
    have e2 : (flat (pre ++ i.text)).length = (flat pre).length + (flat i.text).length := by rw [flat_append, List.length_append]
    rw [e1, e2] at ih'
    rw [runsAt]
    cases hg : i.isGlyph with
    | true =>
      rw [show codes (i :: is) = codes is by simp [codes, hg]]
      simp only [List.filter_cons, Bool.not_true, Bool.false_eq_true, if_false]
      exact ih'
    | false =>
      rw [show codes (i :: is) = i :: codes is by simp [codes, hg]]
      simp only [List.filter_cons, Bool.not_false, if_true, List.map_cons, List.flatten_cons]
      rw [ih', text_cons, flat_append]
      congr 1
      simp only [Run.text]
      rw [List.drop_left, text_cons, flat_append, List.append_assoc, List.take_left]

end Clink.Ellipsify
