import Verif.Proof.EllipsifyDoc

/-!
Proofs about the results of `ellipsify` and `ellipsify_ex` for texts whose codes are complete.
-/

namespace Clink.Ellipsify

open Utf (IsText specUtf8)
open Doskey (peek next between)
open Doskey.Spec (flat)
open Ecma48 (flat_cons flat_append Fresh bufferLimit Piece State nextCode)
open Ecma48.Spec (Code Printable Stop Kind)
open Spec

variable {env : Env}

/-! ### Parts of a text -/

theorem doc_run {t rest : List Nat} {gs : List (List Nat × Int)} {is : List Item} (hp : ∀ c ∈ t, Printable c) (hs : Stop rest) (hg : Glyphs env t gs)
    (hd : Doc env rest is) : Doc env (t ++ rest) (gs.map glyphItem ++ is) := by
  cases t with
  | nil =>
    cases gs with
    | nil => exact hd
    | cons g gs =>
      have := glyphs_text hg
      generalize ht : ([] : List Nat) = t at hg
      cases hg with
      | cons h1 h2 => have := glyph_ne h1; simp_all
  | cons c t => exact .text (by simp) hp hs hg hd

theorem stop_nil : Stop [] := by simp [Stop]

theorem doc_alone {t : List Nat} {gs : List (List Nat × Int)} (hp : ∀ c ∈ t, Printable c) (hg : Glyphs env t gs) : Doc env t (gs.map glyphItem) := by
  have := doc_run hp stop_nil hg .nil
  simpa using this

theorem doc_plain {e : List Nat} (he : ∀ c ∈ e, Plain env c) : Doc env e ((singles env e).map glyphItem) :=
  doc_alone (fun c hc => (he c hc).printable) (glyphs_plain e he)

theorem plainWidth_nil : plainWidth env [] = 0 := rfl
theorem plainWidth_cons (c : Nat) (e : List Nat) : plainWidth env (c :: e) = env.wc c + plainWidth env e := by simp [plainWidth]
theorem plainWidth_append (a b : List Nat) : plainWidth env (a ++ b) = plainWidth env a + plainWidth env b := by simp [plainWidth]

theorem plainWidth_nonneg {e : List Nat} (he : ∀ c ∈ e, Plain env c) : 0 ≤ plainWidth env e := by
  apply sum_nonneg
  intro x hx
  simp only [List.mem_map] at hx
  obtain ⟨c, hc, rfl⟩ := hx
  have := (he c hc).wide
  omega

theorem width_singles (expand : Bool) (e : List Nat) (he : ∀ c ∈ e, Plain env c) : width expand ((singles env e).map glyphItem) = plainWidth env e := by
  induction e with
  | nil => rfl
  | cons c e ih =>
    have hc := (he c (by simp)).wide
    rw [singles, List.map_cons, List.map_cons, width_cons, plainWidth_cons]
    rw [show width expand ((e.map fun c => ([c], env.wc c)).map glyphItem) = plainWidth env e from ih (fun x hx => he x (by simp [hx])), cells_item]
    simp [clen]; omega

theorem text_singles (e : List Nat) : text ((singles env e).map glyphItem) = e := by
  induction e with
  | nil => rfl
  | cons c e ih =>
    rw [singles, List.map_cons, List.map_cons, text_cons]
    rw [show text ((e.map fun c => ([c], env.wc c)).map glyphItem) = e from ih]
    rfl

/-- The items of a text are not empty. -/
theorem glyphs_ne {cs : List Nat} {gs : List (List Nat × Int)} (h : Glyphs env cs gs) : ∀ g ∈ gs, g.1 ≠ [] := by
  induction h with
  | nil => simp
  | cons h1 h2 ih =>
    intro g hg
    simp at hg
    rcases hg with rfl | hg
    · exact glyph_ne h1
    · exact ih g hg

theorem doc_ne {cs : List Nat} {is : List Item} (h : Doc env cs is) : ∀ i ∈ is, i.text ≠ [] := by
  induction h with
  | nil => simp
  | code h1 h2 ih =>
    intro i hi
    simp at hi
    rcases hi with rfl | hi
    · exact Ecma48.code_ne h1
    · exact ih i hi
  | text h1 h2 h3 h4 h5 ih =>
    intro i hi
    rcases List.mem_append.1 hi with hi | hi
    · simp only [List.mem_map] at hi
      obtain ⟨g, hg, rfl⟩ := hi
      exact glyphs_ne h4 g hg
    · exact ih i hi

theorem doc_code_mem {cs : List Nat} {is : List Item} (h : Doc env cs is) : ∀ w, .code w ∈ is → ∃ k x, Code k x w := by
  induction h with
  | nil => simp
  | code h1 h2 ih =>
    intro w hw
    simp at hw
    rcases hw with rfl | hw
    · exact ⟨_, _, h1⟩
    · exact ih w hw
  | text h1 h2 h3 h4 h5 ih =>
    intro w hw
    rcases List.mem_append.1 hw with hw | hw
    · simp at hw
    · exact ih w hw

theorem stop_head {a b : List Nat} (ha : a ≠ []) {c : List Nat} (h : Stop (a ++ b)) : Stop (a ++ c) := by
  cases a with
  | nil => exact absurd rfl ha
  | cons x a => intro y hy; exact h y (by simpa using hy)

theorem map_glyph_append {gs : List (List Nat × Int)} {a b : List Item} (h : gs.map glyphItem = a ++ b) :
    ∃ g1 g2, gs = g1 ++ g2 ∧ a = g1.map glyphItem ∧ b = g2.map glyphItem := by
  obtain ⟨g1, g2, h1, h2, h3⟩ := List.map_eq_append_iff.1 h
  exact ⟨g1, g2, h1, h2.symm, h3.symm⟩

/-- Some items of a text, and then plain characters. -/
theorem doc_prefix {e : List Nat} (he : ∀ c ∈ e, Plain env c) {cs : List Nat} {is : List Item} (h : Doc env cs is) : ∀ (a b : List Item), is = a ++ b →
    Doc env (text a ++ e) (a ++ (singles env e).map glyphItem) := by
  induction h with
  | nil =>
    intro a b hab
    have : a = [] := by simp_all
    subst this
    exact doc_plain he
  | @code k x w rest is h1 h2 ih =>
    intro a b hab
    cases a with
    | nil => exact doc_plain he
    | cons i a =>
      rw [List.cons_append] at hab
      injection hab with h3 h4
      subst h3
      rw [text_cons, List.append_assoc]
      exact .code h1 (ih a b h4)
  | @text t rest gs is h1 h2 h3 h4 h5 ih =>
    intro a b hab
    have hpre : ∀ g1 g2, gs = g1 ++ g2 → Doc env (text (g1.map glyphItem) ++ e) (g1.map glyphItem ++ (singles env e).map glyphItem) := by
      rintro g1 g2 rfl
      rw [text_glyphs, ← List.map_append]
      refine doc_alone ?_ (glyphs_prefix g1 h4 he)
      intro c hc
      rcases List.mem_append.1 hc with hc | hc
      · refine h2 c ?_
        rw [← glyphs_text h4, List.map_append, List.flatten_append]
        exact List.mem_append_left _ hc
      · exact (he c hc).printable
    rcases List.append_eq_append_iff.1 hab with ⟨a', h6, h7⟩ | ⟨b', h6, h7⟩
    · cases a' with
      | nil =>
        have := hpre gs [] (by simp)
        simp only [List.append_nil] at h6
        rw [h6]
        exact this
      | cons i a' =>
        have ih' := ih (i :: a') b h7
        have hrest := doc_text h5
        have e1 : text a ++ e = t ++ (text (i :: a') ++ e) := by
          rw [h6, text_append, show (fun g : List Nat × Int => Item.glyph g.1 g.2) = glyphItem from rfl, text_glyphs, glyphs_text h4, List.append_assoc]
        rw [e1, h6, List.append_assoc]
        refine .text h1 h2 ?_ h4 ih'
        rw [← hrest, h7, text_append] at h3
        refine stop_head ?_ h3
        rw [text_cons]
        have := doc_ne h5 i (by rw [h7]; simp)
        simp [this]
    · obtain ⟨g1, g2, h8, h9, -⟩ := map_glyph_append (gs := gs) h6
      have := hpre g1 g2 h8
      rw [h9]
      exact this

/-- Where text can be continued. -/
def Goes (l : List Nat) : Prop := ∀ c, l.head? = some c → Printable c ∨ c < 0x20

theorem goes_of_stop {l : List Nat} (h : Stop l) : Goes l := fun c hc => .inr (h c hc)

/-- What is behind a character. -/
theorem doc_suffix {cs : List Nat} {is : List Item} (h : Doc env cs is) : ∀ (a : List Item) (g : Item) (b : List Item), is = a ++ g :: b → g.isGlyph = true →
    Doc env (text b) b ∧ Goes (text b) := by
  induction h with
  | nil => intro a g b hab; simp at hab
  | @code k x w rest is h1 h2 ih =>
    intro a g b hab hg
    cases a with
    | nil => simp at hab; obtain ⟨rfl, rfl⟩ := hab; simp [Item.isGlyph] at hg
    | cons i a =>
      rw [List.cons_append] at hab
      injection hab with h3 h4
      exact ih a g b h4 hg
  | @text t rest gs is h1 h2 h3 h4 h5 ih =>
    intro a g b hab hg
    rcases List.append_eq_append_iff.1 hab with ⟨a', h6, h7⟩ | ⟨b', h6, h7⟩
    · exact ih a' g b h7 hg
    · cases b' with
      | nil =>
        rw [List.nil_append] at h7
        exact ih [] g b (by rw [List.nil_append]; exact h7.symm) hg
      | cons x b' =>
        rw [List.cons_append] at h7
        injection h7 with h8 h9
        subst h8
        rw [show a ++ g :: b' = (a ++ [g]) ++ b' by simp] at h6
        obtain ⟨g1, g2, h10, h11, h12⟩ := map_glyph_append (gs := gs) h6
        subst h10
        have hg2 : ∀ (g1 : List (List Nat × Int)) {t : List Nat}, Glyphs env t (g1 ++ g2) → Glyphs env ((g2.map (·.1)).flatten) g2 := by
          intro g1
          induction g1 with
          | nil => intro t ht; rw [List.nil_append] at ht; rw [glyphs_text ht]; exact ht
          | cons g g1 ih =>
            intro t ht
            rw [List.cons_append] at ht
            cases ht with
            | cons h1 h2 => exact ih h2
        have hp2 : ∀ c ∈ (g2.map (·.1)).flatten, Printable c := by
          intro c hc
          refine h2 c ?_
          rw [← glyphs_text h4, List.map_append, List.flatten_append]
          exact List.mem_append_right _ hc
        have hd := doc_run hp2 h3 (hg2 g1 h4) h5
        rw [h9, h12, text_append, text_glyphs, doc_text h5]
        refine ⟨hd, ?_⟩
        intro c hc
        cases ht : (g2.map (·.1)).flatten with
        | nil => rw [ht] at hc; exact .inr (h3 c hc)
        | cons y t2 =>
          rw [ht] at hc
          simp at hc
          exact .inl (hp2 c (by rw [ht, hc]; simp))

theorem code_head {k : Kind} {x : Nat} {w : List Nat} (h : Code k x w) : ∃ c r, w = c :: r ∧ ¬ Printable c := by
  have hi : ∀ {x : Nat} {i : List Nat}, Ecma48.Spec.Intro x i → ∃ c r, i = c :: r ∧ ¬ Printable c := by
    rintro x i ⟨h1, h2, rfl | rfl⟩
    · exact ⟨_, _, rfl, by simp [Printable]⟩
    · exact ⟨_, _, rfl, by simp [Printable]; omega⟩
  cases h with
  | c0 h1 h2 h3 => exact ⟨_, _, rfl, by simp [Printable]; omega⟩
  | icf h1 h2 => exact ⟨_, _, rfl, by simp [Printable]⟩
  | c1 h1 => exact hi h1
  | csi h1 => obtain ⟨c, r, rfl, h⟩ := hi h1; exact ⟨c, _, rfl, h⟩
  | sos h1 => obtain ⟨c, r, rfl, h⟩ := hi h1; exact ⟨c, _, rfl, h⟩
  | cmd h1 => obtain ⟨c, r, rfl, h⟩ := hi h1; exact ⟨c, _, rfl, h⟩

/-- Plain characters before a text without selectors. -/
theorem doc_pushes (expand : Bool) {e : List Nat} (he : ∀ c ∈ e, Plain env c) {cs : List Nat} {is : List Item} (h : Doc env cs is) (hg : Goes cs)
    (hv : NoVariant env cs) : ∃ is', Doc env (e ++ cs) is' ∧ width expand is' = plainWidth env e + width expand is ∧ units is' = e.map .inr ++ units is := by
  have hu : ∀ gs : List (List Nat × Int), units (gs.map glyphItem) = ((gs.map (·.1)).flatten).map .inr := by
    intro gs
    induction gs with
    | nil => rfl
    | cons g gs ih =>
      rw [List.map_cons, List.map_cons, List.flatten_cons, List.map_append, ← ih]
      rfl
  have ua : ∀ a b : List Item, units (a ++ b) = units a ++ units b := by intro a b; simp [units]
  cases h with
  | nil =>
    refine ⟨_, by simpa using doc_plain he, by rw [width_singles _ _ he, width_nil]; omega, ?_⟩
    rw [hu, ← text_glyphs, text_singles]
    simp [units]
  | @code k x w rest is h1 h2 =>
    obtain ⟨c, r, rfl, hc⟩ := code_head h1
    have hs : Stop (c :: r ++ rest) := by
      intro y hy
      simp at hy; subst hy
      rcases hg c (by simp) with h | h
      · exact absurd h hc
      · exact h
    refine ⟨_, doc_run (fun c hc => (he c hc).printable) hs (glyphs_plain e he) (.code h1 h2), by rw [width_append, width_singles _ _ he], ?_⟩
    rw [ua, hu, ← text_glyphs, text_singles]
  | @text t rest gs is h1 h2 h3 h4 h5 =>
    obtain ⟨gs', h6, h7⟩ := glyphs_pushes expand e he h4 (fun hc x hx => hv hc x (by simp [hx]))
    refine ⟨gs'.map glyphItem ++ is, ?_, ?_, ?_⟩
    · rw [← List.append_assoc]
      refine doc_run ?_ h3 h6 h5
      intro c hc
      rcases List.mem_append.1 hc with hc | hc
      · exact (he c hc).printable
      · exact h2 c hc
    · rw [width_append, width_glyphs, h7, width_append, show (fun g : List Nat × Int => Item.glyph g.1 g.2) = glyphItem from rfl, width_glyphs]; omega
    · rw [ua, hu, glyphs_text h6, ua, show (fun g : List Nat × Int => Item.glyph g.1 g.2) = glyphItem from rfl, hu, glyphs_text h4, List.map_append, List.append_assoc]

/-- Codes before a text. -/
theorem doc_codes {cs : List Nat} {is : List Item} (h : Doc env cs is) (ks : List Item) (hk : ∀ i ∈ ks, ∃ w k x, i = .code w ∧ Code k x w) :
    Doc env (text ks ++ cs) (ks ++ is) := by
  induction ks with
  | nil => exact h
  | cons i ks ih =>
    obtain ⟨w, k, x, rfl, hc⟩ := hk i (by simp)
    rw [text_cons, List.append_assoc]
    exact .code hc (ih (fun j hj => hk j (by simp [hj])))

/-! ### The ellipsis -/

/-- The ellipsis, as an argument. -/
def Ell (env : Env) (el : List Nat) (o : Option (List Nat)) : Prop := o = some (flat el) ∨ o = none ∧ el = [0x2026] ∧ env.wc 0x2026 = 1

theorem flat_ellipsis : flat [0x2026] = ellipsis := by decide +kernel

theorem ell_getD {el : List Nat} {o : Option (List Nat)} (h : Ell env el o) : o.getD ellipsis = flat el := by
  rcases h with rfl | ⟨rfl, rfl, -⟩
  · rfl
  · exact flat_ellipsis.symm

theorem ell_cells (hz : env.variant 0 = false) {el : List Nat} {o : Option (List Nat)} (h : Ell env el o) (he : ∀ c ∈ el, Plain env c)
    (hl : (flat el).length ≤ bufferLimit) : ellCells env o = plainWidth env el := by
  rcases h with rfl | ⟨rfl, rfl, h⟩
  · rw [ellCells, cellCount_doc hz false (doc_plain he) (fun c hc => (he c hc).text) hl, width_singles _ _ he]
  · simp [ellCells, plainWidth, h]

theorem fitting_zero {el : List Nat} (he : ∀ c ∈ el, Plain env c) {room : Int} (h : room ≤ 0) : Fitting env el room [] := by
  refine ⟨el, rfl, by rw [plainWidth_nil]; omega, ?_⟩
  rintro c r rfl
  have := (he c (by simp)).wide
  rw [plainWidth_nil]; omega

theorem ex_fitting (hz : env.variant 0 = false) (k : Nat) {el : List Nat} (he : ∀ c ∈ el, Plain env c) (hl : (flat el).length ≤ bufferLimit) {room : Int}
    (h : 0 ≤ room) (expand : Bool) :
    ∃ e t, Fitting env el room e ∧ ex env (k + 2) (flat el) room .right (some []) expand = some ⟨flat e, plainWidth env e, t⟩ := by
  have ht : ∀ c ∈ el, IsText c := fun c hc => (he c hc).text
  have hd := doc_plain he
  rw [show k + 2 = (k + 1) + 1 from rfl, ex.eq_def]
  simp only
  rw [cellCount_doc hz expand hd ht hl, width_singles _ _ he]
  by_cases hf : plainWidth env el ≤ room
  · rw [if_pos hf]
    exact ⟨el, false, ⟨[], by simp, by omega, by simp⟩, rfl⟩
  · rw [if_neg hf]
    have hm := piecesAt_doc hz expand hd ht hl
    have hc0 : ellCells env (some []) = 0 := cellCount_nil false
    rcases rightPieces_at (limit := room) (e := ellCells env (some [])) expand (by omega) hm [] {} (accAt_init expand h) with ⟨a, h1, h2⟩ | ⟨before, g, after, h1, h2, h3⟩
    · have := h2.le
      rw [List.nil_append, width_singles _ _ he] at this
      omega
    · rw [pieces, h3]
      simp only
      have hsp := h1.split
      rw [List.nil_append] at hsp
      obtain ⟨g1, g2, h4, h5, h6⟩ := map_glyph_append hsp
      obtain ⟨e, more, h7, h8, h9⟩ := List.map_eq_append_iff.1 h4
      cases more with
      | nil => simp at h9; subst h9; simp at h6
      | cons c r =>
        subst h9
        rw [List.map_cons, List.map_cons] at h6
        injection h6 with h6 h10
        have hep : ∀ c ∈ e, Plain env c := fun c hc => he c (by rw [h7]; simp [hc])
        have hb : before = (singles env e).map glyphItem := by rw [h5, ← h8]; rfl
        have hwb : width expand before = plainWidth env e := by rw [hb, width_singles _ _ hep]
        have htb : text before = e := by rw [hb, text_singles]
        have hcw := (he c (by rw [h7]; simp)).wide
        have hgc : g.cells expand = env.wc c := by
          rw [h6, cells_item]; simp [clen]; omega
        have hfull := h1.full
        rw [hwb, hgc, hc0] at hfull
        have hroom : plainWidth env e ≤ room := by
          rcases h1.room with h | h
          · rw [hwb, hc0] at h; omega
          · have := width_codes expand before h
            omega
        refine ⟨e, true, ⟨c :: r, h7, by omega, ?_⟩, ?_⟩
        · intro c' r' hcr
          simp at hcr
          obtain ⟨rfl, rfl⟩ := hcr
          omega
        · rw [hwb, htb]
          split
          · rw [Option.getD_some, ex_nil k _ (by omega)]
            simp
          · rfl

/-! ### The results -/

theorem ex_fits (hz : env.variant 0 = false) (k : Nat) {cs : List Nat} {is : List Item} (h : Doc env cs is) (ht : ∀ c ∈ cs, IsText c)
    (hl : (flat cs).length ≤ bufferLimit) {limit : Int} {expand : Bool} (hf : width expand is ≤ limit) (mode : Mode) (o : Option (List Nat)) :
    ex env (k + 1) (flat cs) limit mode o expand = some ⟨flat cs, width expand is, false⟩ := by
  rw [ex.eq_def]
  simp only
  rw [cellCount_doc hz expand h ht hl, if_pos hf]

theorem ex_right (hz : env.variant 0 = false) (k : Nat) {cs : List Nat} {is : List Item} (h : Doc env cs is) (ht : ∀ c ∈ cs, IsText c)
    (hl : (flat cs).length ≤ bufferLimit) {limit : Int} (h0 : 0 ≤ limit) {expand : Bool} (hf : limit < width expand is) {el : List Nat} {o : Option (List Nat)}
    (ho : Ell env el o) (he : ∀ c ∈ el, Plain env c) (hel : (flat el).length ≤ bufferLimit) :
    ∃ before g after e, CutRight env expand is limit el before after g ∧ Fitting env el (limit - width expand before) e ∧
      ex env (k + 3) (flat cs) limit .right o expand = some ⟨flat (text before ++ e), width expand before + plainWidth env e, true⟩ := by
  rw [show k + 3 = (k + 2) + 1 from rfl, ex.eq_def]
  simp only
  rw [cellCount_doc hz expand h ht hl, if_neg (by omega), ell_cells hz ho he hel, ell_getD ho]
  have hm := piecesAt_doc hz expand h ht hl
  rcases rightPieces_at (limit := limit) (e := plainWidth env el) expand (plainWidth_nonneg he) hm [] {} (accAt_init expand h0) with ⟨a, h1, h2⟩ | ⟨before, g, after, h1, h2, h3⟩
  · have := h2.le
    rw [List.nil_append] at this
    omega
  · rw [List.nil_append] at h1
    rw [pieces, h3]
    simp only
    by_cases hv : limit - width expand before > 0
    · rw [if_pos hv]
      obtain ⟨e, t, h4, h5⟩ := ex_fitting hz k he hel (room := limit - width expand before) (by omega) expand
      refine ⟨before, g, after, e, ⟨h1.split, h1.glyph, h1.full, h1.room⟩, h4, ?_⟩
      rw [h5, flat_append]
      rfl
    · rw [if_neg hv]
      refine ⟨before, g, after, [], ⟨h1.split, h1.glyph, h1.full, h1.room⟩, fitting_zero he (by omega), ?_⟩
      rw [List.append_nil, plainWidth_nil, Int.add_zero]

theorem ex_left (hz : env.variant 0 = false) (k : Nat) {cs : List Nat} {is : List Item} (h : Doc env cs is) (ht : ∀ c ∈ cs, IsText c)
    (hl : (flat cs).length ≤ bufferLimit) {limit : Int} (h0 : 0 ≤ limit) {expand : Bool} (hf : limit < width expand is) {el : List Nat} {o : Option (List Nat)}
    (ho : Ell env el o) (he : ∀ c ∈ el, Plain env c) (hel : (flat el).length ≤ bufferLimit) :
    ∃ before g after e, CutLeft env expand is limit el before after g ∧ Fitting env el (limit - width expand after) e ∧
      ex env (k + 3) (flat cs) limit .left o expand =
        some ⟨flat (text (codes before) ++ e ++ text after), plainWidth env e + width expand after, true⟩ := by
  rw [show k + 3 = (k + 2) + 1 from rfl, ex.eq_def]
  simp only
  rw [cellCount_doc hz expand h ht hl, if_neg (by omega), ell_cells hz ho he hel, ell_getD ho]
  have hm := piecesAt_doc hz expand h ht hl
  have hruns := leftRuns_at expand (flat cs).length hm (Nat.le_refl _)
  rw [Nat.sub_self] at hruns
  rw [hruns]
  have hloop := leftLoop_at (limit := limit) (e := plainWidth env el) expand (plainWidth_nonneg he) is.reverse [] none (by rw [width_nil]; exact h0)
    (fun _ => .inr (by simp)) (by simp)
  rw [List.reverse_reverse, List.append_nil, width_nil] at hloop
  rcases hloop with ⟨-, h1⟩ | ⟨q, h1, ⟨before, g, after, h2, rfl⟩, h3⟩
  · omega
  · have h1' : leftLoop limit (plainWidth env el) (runsAt expand 0 is).reverse [] 0 none = _ := h1
    rw [h1']
    simp only
    have htx : flat cs = flat (text (before ++ [g])) ++ flat (text after) := by
      rw [← doc_text h, h2.split, ← flat_append, ← text_append]
      congr 2; simp
    have hcodes : (((runsAt expand 0 (before ++ [g])).filter fun r => !r.chars).map (·.text (flat cs))).flatten = flat (text (codes before)) := by
      have := runsAt_codes expand (before ++ [g]) [] (flat (text after))
      rw [← htx] at this
      rw [show codes (before ++ [g]) = codes before by simp [codes, h2.glyph]] at this
      exact this
    have hkept : keptFrom (flat cs) (runsAt expand (flat (text (before ++ [g]))).length after) = flat (text after) := by
      cases after with
      | nil => rfl
      | cons i after => simp only [runsAt, keptFrom]; rw [htx, List.drop_left]
    rw [hcodes, hkept]
    by_cases hv : limit - width expand after > 0
    · rw [if_pos hv]
      obtain ⟨e, t, h4, h5⟩ := ex_fitting hz k he hel (room := limit - width expand after) (by omega) expand
      refine ⟨before, g, after, e, ⟨h2.split, h2.glyph, h2.full, h2.room⟩, h4, ?_⟩
      rw [h5, flat_append, flat_append, Option.map_some, Int.add_comm]
    · rw [if_neg hv]
      refine ⟨before, g, after, [], ⟨h2.split, h2.glyph, h2.full, h2.room⟩, fitting_zero he (by omega), ?_⟩
      rw [List.append_nil, plainWidth_nil, Int.zero_add, flat_append]

end Clink.Ellipsify
