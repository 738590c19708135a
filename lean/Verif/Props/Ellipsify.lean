import Verif.Proof.EllipsifyPath
import Verif.Model.Color

/-!
C17: ellipsified text never exceeds the requested width.
C18: ellipsifying keeps text that fits and otherwise cuts at one place.

`ellipsifyEx env l limit mode o expand` is `ellipsify_ex`, `ellipsify env l limit expand` is `ellipsify`.  A text is
`flat cs`; `Spec.Clean env cs is` says that all its codes are complete, and `is` are its codes and its characters as they
are seen.  `Spec.width` is the number of cells.  The tables behind the widths of characters are parameters; all that is
assumed is that the end of the text is no variant selector.
-/

namespace Clink.Ellipsify
open Doskey.Spec (flat)
open Ecma48.Spec (Code Printable Stop Kind)
open Spec

variable {env : Env}

theorem Spec.Marker.ell {el : List Nat} {o : Option (List Nat)} (h : Marker env el o) : Ell env el o := h.arg

/-- The reported width is not greater than the limit, whatever the bytes and the tables are. -/
theorem C17_reported (l : List Nat) {limit : Int} (h : 0 ≤ limit) (mode : Mode) (o : Option (List Nat)) (expand : Bool) :
    ∃ r, ellipsifyEx env l limit mode o expand = some r ∧ 0 ≤ r.width ∧ r.width ≤ limit :=
  ex_all 0 l limit h mode o expand

/-- The same for `ellipsify`, if there is room for an ellipsis. -/
theorem C17_reported_basic (l : List Nat) {limit : Int} (h : 1 ≤ limit) (he : cellCount env false ellipsis = 1) (expand : Bool) :
    0 ≤ (ellipsify env l limit expand).2 ∧ (ellipsify env l limit expand).2 ≤ limit :=
  ellipsify_limit l h he expand

/-- Every text without control characters is a text with complete codes. -/
theorem C17_readable {cs : List Nat} (h : ∀ c ∈ cs, Printable c) : ∃ is, Doc env cs is := by
  obtain ⟨gs, hg⟩ := glyphs_exist (env := env) cs.length cs (Nat.le_refl _)
  exact ⟨_, doc_alone h hg⟩

/-- The width of a text depends on the text only. -/
theorem C17_width (hz : env.variant 0 = false) {cs : List Nat} {is is' : List Item} (h : Clean env cs is) (h' : Doc env cs is') (expand : Bool) :
    width expand is = width expand is' := by
  rw [← cellCount_doc hz expand h.doc h.text h.size, cellCount_doc hz expand h' h.text h.size]

/-- Text that fits is returned unchanged, in every mode. -/
theorem C18_fits (hz : env.variant 0 = false) {cs : List Nat} {is : List Item} (h : Clean env cs is) {limit : Int} {expand : Bool}
    (hf : width expand is ≤ limit) (mode : Mode) (o : Option (List Nat)) :
    ellipsifyEx env (flat cs) limit mode o expand = some ⟨flat cs, width expand is, false⟩ :=
  ex_fits hz 3 h.doc h.text h.size hf mode o

/-- Cutting on the right: what is before the character `g`, codes included, and as much of the ellipsis as fits. -/
theorem C18_right (hz : env.variant 0 = false) {cs : List Nat} {is : List Item} (h : Clean env cs is) {limit : Int} (h0 : 0 ≤ limit) {expand : Bool}
    (hf : limit < width expand is) {el : List Nat} {o : Option (List Nat)} (ho : Marker env el o) :
    ∃ before g after e, CutRight env expand is limit el before after g ∧ Fitting env el (limit - width expand before) e ∧
      ellipsifyEx env (flat cs) limit .right o expand = some ⟨flat (text before ++ e), width expand before + plainWidth env e, true⟩ :=
  ex_right hz 1 h.doc h.text h.size h0 hf ho.ell ho.plain ho.size

/-- Cutting on the left: the codes that are before the character `g`, as much of the ellipsis as fits, and what is
behind the character. -/
theorem C18_left (hz : env.variant 0 = false) {cs : List Nat} {is : List Item} (h : Clean env cs is) {limit : Int} (h0 : 0 ≤ limit) {expand : Bool}
    (hf : limit < width expand is) {el : List Nat} {o : Option (List Nat)} (ho : Marker env el o) :
    ∃ before g after e, CutLeft env expand is limit el before after g ∧ Fitting env el (limit - width expand after) e ∧
      ellipsifyEx env (flat cs) limit .left o expand =
        some ⟨flat (text (codes before) ++ e ++ text after), plainWidth env e + width expand after, true⟩ :=
  ex_left hz 1 h.doc h.text h.size h0 hf ho.ell ho.plain ho.size

/-- Paths: if the drive and the ellipsis fit, then the drive is kept, and the rest is cut on the left, behind the
whole ellipsis. -/
theorem C18_path (hz : env.variant 0 = false) {cs : List Nat} {is : List Item} (h : Clean env cs is) (hv : NoVariant env cs)
    (hpl : ∀ c, Letter c ∨ c = 58 → Plain env c) {d r : List Nat} {n : Int} (hs : PathSplit env is d r n) {limit : Int} (h0 : 0 ≤ limit)
    (hf : limit < width false is) {el : List Nat} {o : Option (List Nat)} (ho : Marker env el o) (hn : n + plainWidth env el ≤ limit)
    {ir : List Item} (hir : Doc env r ir) :
    cs = d ++ r ∧ ∃ before g after, CutLeft env false ir (limit - n) el before after g ∧ width false after + plainWidth env el ≤ limit - n ∧
      ellipsifyEx env (flat cs) limit .path o false =
        some ⟨flat (d ++ (text (codes before) ++ el ++ text after)), n + (plainWidth env el + width false after), true⟩ :=
  ⟨(path_split hz h.doc h.text h.size hv hpl hs).1, (ex_path_eq hz 0 h.doc h.text h.size hv hpl hs h0 hf ho.ell ho.plain ho.size).1 hn ir hir⟩

/-- Otherwise the path is cut on the right. -/
theorem C18_path_narrow (hz : env.variant 0 = false) {cs : List Nat} {is : List Item} (h : Clean env cs is) (hv : NoVariant env cs)
    (hpl : ∀ c, Letter c ∨ c = 58 → Plain env c) {d r : List Nat} {n : Int} (hs : PathSplit env is d r n) {limit : Int} (h0 : 0 ≤ limit)
    (hf : limit < width false is) {el : List Nat} {o : Option (List Nat)} (ho : Marker env el o) (hn : limit < n + plainWidth env el) :
    ellipsifyEx env (flat cs) limit .path o false = ellipsifyEx env (flat cs) limit .right o false := by
  rw [ellipsifyEx, (ex_path_eq hz 0 h.doc h.text h.size hv hpl hs h0 hf ho.ell ho.plain ho.size).2 hn]
  obtain ⟨before, g, after, e, h1, h2, h3⟩ := ex_right hz 0 h.doc h.text h.size h0 hf ho.ell ho.plain ho.size
  rw [ellipsifyEx, h3, ex_mono _ _ _ _ _ _ _ h3]

/-- Every path is divided in one of the two ways, and the rest of the path has complete codes. -/
theorem C18_path_splits (hz : env.variant 0 = false) {cs : List Nat} {is : List Item} (h : Clean env cs is) (hv : NoVariant env cs)
    (hpl : ∀ c, Letter c ∨ c = 58 → Plain env c) : ∃ d r n ir, PathSplit env is d r n ∧ Doc env r ir := by
  have hsplit : ∃ d r n, PathSplit env is d r n := by
    open Classical in
    by_cases hd : ∃ c d r, DriveOf is c d r
    · obtain ⟨c, d, r, hd⟩ := hd
      exact ⟨d, r, _, .inl ⟨c, hd, rfl⟩⟩
    · exact ⟨[], text is, 0, .inr ⟨hd, rfl, rfl, rfl⟩⟩
  obtain ⟨d, r, n, hs⟩ := hsplit
  obtain ⟨ir, hir⟩ := (path_split hz h.doc h.text h.size hv hpl hs).2.2.2.1
  exact ⟨d, r, n, ir, hs, hir⟩

/-- The reported width is the width of the result, and the result has complete codes.  On the left and in paths there
must be no variant selectors, and paths must not be expanded. -/
theorem C17_real (hz : env.variant 0 = false) {cs : List Nat} {is : List Item} (h : Clean env cs is) {limit : Int} (h0 : 0 ≤ limit) (mode : Mode) {expand : Bool}
    {el : List Nat} {o : Option (List Nat)} (ho : Marker env el o) (hv : mode ≠ .right → NoVariant env cs)
    (hp : mode = .path → expand = false ∧ ∀ c, Letter c ∨ c = 58 → Plain env c) :
    ∃ out is' t, ellipsifyEx env (flat cs) limit mode o expand = some ⟨flat out, width expand is', t⟩ ∧ Doc env out is' ∧ width expand is' ≤ limit := by
  obtain ⟨q, hq, -, hle⟩ := C17_reported (env := env) (flat cs) h0 mode o expand
  suffices hh : ∃ out is' t, ellipsifyEx env (flat cs) limit mode o expand = some ⟨flat out, width expand is', t⟩ ∧ Doc env out is' by
    obtain ⟨out, is', t, h1, h2⟩ := hh
    refine ⟨out, is', t, h1, h2, ?_⟩
    rw [h1] at hq
    injection hq with hq
    rw [← hq] at hle
    exact hle
  by_cases hf : width expand is ≤ limit
  · exact ⟨cs, is, false, C18_fits hz h hf mode o, h.doc⟩
  have hright : ∃ out is' t, ellipsifyEx env (flat cs) limit .right o expand = some ⟨flat out, width expand is', t⟩ ∧ Doc env out is' := by
    obtain ⟨before, g, after, e, h1, h2, h3⟩ := C18_right hz h h0 (by omega : limit < width expand is) ho
    obtain ⟨more, h4, -⟩ := h2
    have hep : ∀ c ∈ e, Plain env c := fun c hc => ho.plain c (by rw [h4]; simp [hc])
    refine ⟨_, before ++ (singles env e).map glyphItem, true, ?_, doc_prefix hep h.doc before _ h1.split⟩
    rw [h3, width_append, width_singles _ _ hep]
  cases mode with
  | right => exact hright
  | left =>
    obtain ⟨before, g, after, e, h1, h2, h3⟩ := C18_left hz h h0 (by omega : limit < width expand is) ho
    obtain ⟨more, h4, -⟩ := h2
    obtain ⟨is', h5, h6⟩ := left_doc h.doc h1 (e := e) (fun c hc => ho.plain c (by rw [h4]; simp [hc])) (hv (by simp))
    exact ⟨_, is', true, by rw [h3, h6], h5⟩
  | path =>
    obtain ⟨rfl, hpl⟩ := hp rfl
    obtain ⟨d, r, n, ir, hs, hir⟩ := C18_path_splits hz h (hv (by simp)) hpl
    by_cases hn : n + plainWidth env el ≤ limit
    · obtain ⟨-, before, g, after, h1, h2, h3⟩ := C18_path hz h (hv (by simp)) hpl hs h0 (by omega) ho hn hir
      obtain ⟨is', h5, h6⟩ := path_doc hz h.doc h.text h.size (hv (by simp)) hpl hs hir h1 ho.plain
      exact ⟨_, is', true, by rw [h3, h6], h5⟩
    · rw [C18_path_narrow hz h (hv (by simp)) hpl hs h0 (by omega) ho (by omega)]
      exact hright

/-- The default ellipsis has one cell. -/
theorem marker_default (hp : Plain env 0x2026) (h1 : env.wc 0x2026 = 1) : Marker env [0x2026] none :=
  ⟨by intro c hc; simp at hc; subst hc; exact hp, by decide +kernel, .inr ⟨rfl, rfl, h1⟩⟩

theorem ellipsis_cells (hz : env.variant 0 = false) (hp : Plain env 0x2026) (h1 : env.wc 0x2026 = 1) : cellCount env false ellipsis = 1 := by
  have hpl : ∀ c ∈ [0x2026], Plain env c := by intro c hc; simp at hc; subst hc; exact hp
  rw [← flat_ellipsis, cellCount_doc hz false (doc_plain hpl) (fun c hc => (hpl c hc).text) (by decide +kernel), width_singles _ _ hpl]
  simp [plainWidth, h1]

/-- `ellipsify` does the same as `ellipsify_ex` on the right, for texts with complete codes and at least one cell. -/
theorem C18_ellipsify (hz : env.variant 0 = false) (hp : Plain env 0x2026) (h1 : env.wc 0x2026 = 1) {cs : List Nat} {is : List Item} (h : Clean env cs is)
    {limit : Int} (h0 : 1 ≤ limit) {expand : Bool} :
    (width expand is ≤ limit → ellipsify env (flat cs) limit expand = (flat cs, width expand is)) ∧
    (limit < width expand is → ∃ before g after, CutRight env expand is limit [0x2026] before after g ∧
      ellipsify env (flat cs) limit expand = (flat (text before ++ [0x2026]), width expand before + 1) ∧
      Doc env (text before ++ [0x2026]) (before ++ [.glyph [0x2026] 1]) ∧ width expand (before ++ [.glyph [0x2026] 1]) = width expand before + 1 ∧
      width expand before + 1 ≤ limit) := by
  have hm := piecesAt_doc hz expand h.doc h.text h.size
  have hpw : plainWidth env [0x2026] = 1 := by simp [plainWidth, h1]
  rw [ellipsify]
  rcases rightPieces_at (limit := limit) (e := 1) expand (by omega) hm [] {} (accAt_init expand (by omega)) with ⟨a, h2, h3⟩ | ⟨before, g, after, h2, h3, h4⟩
  · rw [List.nil_append] at h3
    rw [pieces, h2]
    refine ⟨fun _ => ?_, fun hf => ?_⟩
    · simp only
      rw [h3.out, h3.vis, doc_text h.doc]
    · have := h3.le; omega
  · rw [List.nil_append] at h2 h3
    refine ⟨fun hf => by omega, fun _ => ?_⟩
    rw [pieces, h4]
    simp only
    have hw : width expand before ≤ limit - 1 := by
      rcases h2.room with hh | hh
      · exact hh
      · have := width_codes expand before hh; omega
    refine ⟨before, g, after, ⟨h2.split, h2.glyph, by rw [hpw]; exact h2.full, by rw [hpw]; exact h2.room⟩, ?_, ?_, ?_, by omega⟩
    · rw [ellipsis_cells hz hp h1, Ecma48.flat_append, flat_ellipsis]
    · have := doc_prefix (e := [0x2026]) (by intro c hc; simp at hc; subst hc; exact hp) h.doc before _ h2.split
      rw [← h1]
      exact this
    · rw [width_append]
      simp [width, Item.cells]

/-! ### Examples -/

/-- Tables: control characters, combining marks, wide characters, some emoji, variant selectors. -/
def demo : Env where
  wc c := if c < 0x20 || (0x7f ≤ c && c < 0xa0) then -1 else if 0x300 ≤ c && c < 0x370 || c == 0x200d then 0 else if 0x4e00 ≤ c && c < 0xa000 || 0x1f300 ≤ c then 2 else 1
  emoji c := 0x1f300 ≤ c && c < 0x1f900
  unq c := c == 0x2764
  variant c := c == 0xfe0f
  color := true

def codes' (s : String) : List Nat := s.toList.map Char.toNat

theorem demo_plain {c : Nat} (h1 : 0x20 ≤ c) (h2 : c < 0x7f) : Plain demo c where
  text := by exact ⟨by omega, by omega, by omega⟩
  printable := ⟨h1, by omega⟩
  wide := by
    simp only [demo]
    rw [if_neg (by simp; omega), if_neg (by simp; omega), if_neg (by simp; omega)]
    omega
  flag := by simp [Flag]; omega
  emoji := by simp [demo]; omega
  unq := by simp [demo]; omega
  variant := by simp [demo]; omega
  joiner := by omega
  sign := by omega

theorem demo_plain_wide {c : Nat} (h1 : 0x4e00 ≤ c) (h2 : c < 0xa000) : Plain demo c where
  text := by exact ⟨by omega, by omega, by omega⟩
  printable := ⟨by omega, by omega⟩
  wide := by
    simp only [demo]
    rw [if_neg (by simp; omega), if_neg (by simp; omega), if_pos (by simp; omega)]
    omega
  flag := by simp [Flag]; omega
  emoji := by simp [demo]; omega
  unq := by simp [demo]; omega
  variant := by simp [demo]; omega
  joiner := by omega
  sign := by omega

theorem demo_marker : Marker demo [46, 46] (some [46, 46]) :=
  ⟨by intro c hc; simp at hc; subst hc; exact demo_plain (by omega) (by omega), by decide +kernel, .inl (by decide +kernel)⟩

theorem demo_dots : Plain demo 0x2026 :=
  ⟨by decide, by unfold Printable; decide, by decide, by unfold Flag; decide, by decide, by decide, by decide, by decide, by decide⟩

theorem demo_letters : ∀ c, Letter c ∨ c = 58 → Plain demo c := by
  intro c hc
  unfold Letter at hc
  exact demo_plain (by omega) (by omega)

theorem csi (ps : List Nat) (hp : ∀ c ∈ ps, 0x30 ≤ c ∧ c ≤ 0x3f) : Code .c1 0x5b ([27, 0x5b] ++ ps ++ [] ++ [109]) :=
  .csi ⟨by omega, by omega, .inl rfl⟩ hp (by simp) ⟨by omega, by omega⟩

/-- A path with a drive, codes and wide characters. -/
def demoPath : List Nat := codes' "\x1b[mc:\x1b[32m/ab世\x1b[34muvw"

def demoItems : List Item :=
  [.code [27, 91, 109], .glyph [99] 1, .glyph [58] 1, .code [27, 91, 51, 50, 109], .glyph [47] 1, .glyph [97] 1, .glyph [98] 1, .glyph [0x4e16] 2,
   .code [27, 91, 51, 52, 109], .glyph [117] 1, .glyph [118] 1, .glyph [119] 1]

theorem demo_clean : Clean demo demoPath demoItems := by
  refine ⟨?_, by decide +kernel, by decide +kernel⟩
  have run : ∀ (t : List Nat) {rest is}, (∀ c ∈ t, Plain demo c) → Stop rest → Doc demo rest is → Doc demo (t ++ rest) ((singles demo t).map glyphItem ++ is) :=
    fun t _ _ h1 h2 h3 => doc_run (fun c hc => (h1 c hc).printable) h2 (glyphs_plain t h1) h3
  have hp : ∀ c, 0x20 ≤ c ∧ c < 0x7f ∨ c = 0x4e16 → Plain demo c := by
    rintro c (h | rfl)
    · exact demo_plain h.1 h.2
    · exact demo_plain_wide (by omega) (by omega)
  have h1 := run [117, 118, 119] (fun c hc => hp c (by simp at hc; omega)) stop_nil .nil
  have h2 := Doc.code (csi [51, 52] (by decide)) h1
  have h3 := run [47, 97, 98, 0x4e16] (fun c hc => hp c (by simp at hc; omega)) (by intro c hc; simp at hc; omega) h2
  have h4 := Doc.code (csi [51, 50] (by decide)) h3
  have h5 := run [99, 58] (fun c hc => hp c (by simp at hc; omega)) (by intro c hc; simp at hc; omega) h4
  have h6 := Doc.code (csi [] (by simp)) h5
  exact h6

theorem demo_novariant : NoVariant demo demoPath := by intro _; decide +kernel

theorem demo_drive : DriveOf demoItems 99 (codes' "\x1b[mc:\x1b[32m") (codes' "/ab世\x1b[34muvw") :=
  ⟨[.inl [27, 91, 109], .inr 99, .inr 58, .inl [27, 91, 51, 50, 109]], 47,
    [.inr 97, .inr 98, .inr 0x4e16, .inl [27, 91, 51, 52, 109], .inr 117, .inr 118, .inr 119], rfl, rfl, by unfold Letter; omega, rfl, rfl⟩

example : width false demoItems = 10 := by decide +kernel

/- It fits. -/
example (mode : Mode) : ellipsifyEx demo (flat demoPath) 10 mode none false = some ⟨flat demoPath, 10, false⟩ :=
  C18_fits rfl demo_clean (by decide +kernel) mode none

/- In 8 cells: `c:/ab` and two dots; the wide character has no room. -/
example : ∃ before g after e, CutRight demo false demoItems 8 [46, 46] before after g ∧ Fitting demo [46, 46] (8 - width false before) e ∧
    ellipsifyEx demo (flat demoPath) 8 .right (some [46, 46]) false = some ⟨flat (text before ++ e), width false before + plainWidth demo e, true⟩ :=
  C18_right rfl demo_clean (by decide) (by decide +kernel) demo_marker
example : ellipsifyEx demo (flat demoPath) 8 .right (some [46, 46]) false = some ⟨flat (codes' "\x1b[mc:\x1b[32m/ab.."), 7, true⟩ := by decide +kernel
/- In one cell: one dot. -/
example : ellipsifyEx demo (flat demoPath) 1 .right (some [46, 46]) false = some ⟨flat (codes' "\x1b[m."), 1, true⟩ := by decide +kernel

/- On the left all codes are kept. -/
example : ∃ before g after e, CutLeft demo false demoItems 6 [46, 46] before after g ∧ Fitting demo [46, 46] (6 - width false after) e ∧
    ellipsifyEx demo (flat demoPath) 6 .left (some [46, 46]) false =
      some ⟨flat (text (codes before) ++ e ++ text after), plainWidth demo e + width false after, true⟩ :=
  C18_left rfl demo_clean (by decide) (by decide +kernel) demo_marker
example : ellipsifyEx demo (flat demoPath) 6 .left (some [46, 46]) false = some ⟨flat (codes' "\x1b[m\x1b[32m..\x1b[34muvw"), 5, true⟩ := by decide +kernel

/- The drive is kept in 6 cells, and not in 3. -/
example {ir : List Item} (hir : Doc demo (codes' "/ab世\x1b[34muvw") ir) :=
  C18_path rfl demo_clean demo_novariant demo_letters (.inl ⟨99, demo_drive, rfl⟩) (limit := 6) (by decide) (by decide +kernel) demo_marker (by decide) hir
example : ellipsifyEx demo (flat demoPath) 6 .path (some [46, 46]) false = some ⟨flat (codes' "\x1b[mc:\x1b[32m\x1b[34m..vw"), 6, true⟩ := by decide +kernel
example : ellipsifyEx demo (flat demoPath) 3 .path (some [46, 46]) false = ellipsifyEx demo (flat demoPath) 3 .right (some [46, 46]) false :=
  C18_path_narrow rfl demo_clean demo_novariant demo_letters (.inl ⟨99, demo_drive, rfl⟩) (by decide) (by decide +kernel) demo_marker (by decide)
example : ellipsifyEx demo (flat demoPath) 3 .path (some [46, 46]) false = some ⟨flat (codes' "\x1b[mc.."), 3, true⟩ := by decide +kernel

example : ∃ out is' t, ellipsifyEx demo (flat demoPath) 7 .path (some [46, 46]) false = some ⟨flat out, width false is', t⟩ ∧ Doc demo out is' ∧
    width false is' ≤ 7 :=
  C17_real rfl demo_clean (by decide) .path demo_marker (fun _ => demo_novariant) (fun _ => ⟨rfl, demo_letters⟩)

example : (ellipsify demo (flat demoPath) 6 false).2 ≤ 6 := (C17_reported_basic _ (by decide) (by decide +kernel) _).2
example : ellipsify demo (flat demoPath) 6 false = (flat (codes' "\x1b[mc:\x1b[32m/ab…"), 6) := by decide +kernel
example := (C18_ellipsify rfl demo_dots rfl demo_clean (limit := 6) (expand := false) (by decide)).2 (by decide +kernel)

/- Characters that are more than one code point: a letter with an accent, a heart with a selector, a family, a flag. -/
example : Glyphs demo [0x65, 0x301, 0x2764, 0xfe0f, 0x1f468, 0x200d, 0x1f469, 0x1f1e6, 0x1f1e7, 0x61]
    [([0x65, 0x301], 1), ([0x2764, 0xfe0f], 2), ([0x1f468, 0x200d, 0x1f469], 2), ([0x1f1e6, 0x1f1e7], 2), ([0x61], 1)] := by
  refine .cons (w := [0x65, 0x301]) (.plain (by decide) ?_ ?_ ?_ (by decide +kernel) (by decide +kernel)) ?_
  · intro _ _
    exact ⟨by rintro ⟨h, -⟩; revert h; unfold Flag; decide, by decide, by decide, by decide⟩
  · intro z hz; simp at hz; subst hz; exact .inl rfl
  · rintro ⟨c, hc, h⟩; simp at hc; subst hc; rcases h with h | h <;> revert h <;> decide
  refine .cons (w := [0x2764, 0xfe0f]) (.emoji rfl (by decide) (by rintro ⟨h, -⟩; revert h; unfold Flag; decide) (.inr (.inl rfl)) ?_ (by decide +kernel) (by decide)) ?_
  · refine .selector rfl (.stop ?_)
    rintro ⟨c, hc, h⟩; simp at hc; subst hc; revert h; decide
  refine .cons (w := [0x1f468, 0x200d, 0x1f469]) (.emoji rfl (by decide) (by rintro ⟨h, -⟩; revert h; unfold Flag; decide) (.inl rfl) ?_ (by decide +kernel) (by decide)) ?_
  · refine .joined (by decide) (.inl rfl) (.stop ?_)
    rintro ⟨c, hc, h⟩; simp at hc; subst hc; revert h; decide
  refine .cons (w := [0x1f1e6, 0x1f1e7]) (.flags rfl (by decide) (by unfold Flag; decide) (by unfold Flag; decide)) ?_
  exact .cons (w := [0x61]) (plain_glyph (demo_plain (by omega) (by omega)) (by simp [Starts])) .nil

/-! ### The tests of the project, lib/test/ellipsify.cpp -/

def run (n : Int) (s out : String) (m : Mode) (e : String) (t : Bool) : Bool :=
  (ellipsifyEx demo (flat (codes' s)) n m (some (flat (codes' e))) false).map (fun r => (r.out, r.truncated)) == some (flat (codes' out), t)

example : run 0 "" "" .right "!" false ∧ run 1 "" "" .right "!" false ∧ run 0 "a" "" .right "!" true ∧ run 1 "a" "a" .right "!" false ∧
    run 1 "ab" "." .right "..." true ∧ run 0 "abcde" "" .right "!" true ∧ run 1 "abcde" "!" .right "!" true ∧ run 6 "abcde" "abcde" .right "!" false ∧
    run 6 "abcdef" "abcdef" .right "!" false ∧ run 6 "abcdefg" "abcde!" .right "!" true ∧ run 6 "abcdefg" "abc..." .right "..." true ∧
    run 6 "abcdefg" "abcdef" .right "" true := by decide +kernel

example : run 0 "" "" .left "!" false ∧ run 0 "a" "" .left "!" true ∧ run 1 "a" "a" .left "!" false ∧ run 1 "ab" "." .left "..." true ∧
    run 0 "abcde" "" .left "!" true ∧ run 1 "abcde" "!" .left "!" true ∧ run 6 "abcdef" "abcdef" .left "!" false ∧
    run 6 "abcdefg" "!cdefg" .left "!" true ∧ run 6 "abcdefg" "...efg" .left "..." true ∧ run 6 "abcdefg" "bcdefg" .left "" true := by decide +kernel

example : run 0 "c:/abcdef/uvwxyz" "" .path "!" true ∧ run 1 "c:/abcdef/uvwxyz" "!" .path "!" true ∧ run 1 "c:/abcdef/uvwxyz" "." .path "..." true ∧
    run 2 "c:/abcdef/uvwxyz" "c!" .path "!" true ∧ run 2 "c:/abcdef/uvwxyz" ".." .path "..." true ∧ run 3 "c:/abcdef/uvwxyz" "c:!" .path "!" true ∧
    run 3 "c:/abcdef/uvwxyz" "..." .path "..." true ∧ run 4 "c:/abcdef/uvwxyz" "c:!z" .path "!" true ∧ run 4 "c:/abcdef/uvwxyz" "c..." .path "..." true ∧
    run 5 "c:/abcdef/uvwxyz" "c:!yz" .path "!" true ∧ run 5 "c:/abcdef/uvwxyz" "c:..." .path "..." true ∧
    run 10 "c:/abcdef/uvwxyz" "c:!/uvwxyz" .path "!" true ∧ run 10 "c:/abcdef/uvwxyz" "c:...vwxyz" .path "..." true ∧
    run 6 "c:/abcdef/uvwxyz" "c:wxyz" .path "" true := by decide +kernel

example : run 4 "\x1b[mabcd\x1b[1m1234" "\x1b[mabc!" .right "!" true ∧ run 5 "\x1b[mabcd\x1b[1m1234" "\x1b[mabcd\x1b[1m!" .right "!" true ∧
    run 6 "\x1b[mabcd\x1b[1m1234" "\x1b[mabcd\x1b[1m1!" .right "!" true ∧ run 2 "\x1b[mabcd\x1b[1m12" "\x1b[m\x1b[1m!2" .left "!" true ∧
    run 3 "\x1b[mabcd\x1b[1m12" "\x1b[m!\x1b[1m12" .left "!" true ∧ run 5 "\x1b[mabcd\x1b[1m12" "\x1b[m!cd\x1b[1m12" .left "!" true ∧
    run 6 "\x1b[mc:\x1b[32m/abcdef/\x1b[34muvwxyz" "\x1b[mc:\x1b[32m\x1b[34m!xyz" .path "!" true ∧
    run 9 "\x1b[mc:\x1b[32m/abcdef/\x1b[34muvwxyz" "\x1b[mc:\x1b[32m!\x1b[34muvwxyz" .path "!" true := by decide +kernel

/-! ### What does not hold -/

/-- `ellipsify` into no cells yields an ellipsis of one cell. -/
theorem C17_zero_fails : ellipsify demo (flat (codes' "ab")) 0 false = (ellipsis, 1) := by decide +kernel

/-- A negative limit on the left yields the whole text. -/
theorem C17_negative_fails : ellipsifyEx demo (flat (codes' "ab")) (-1) .left (some (flat [33])) false = some ⟨flat (codes' "ab"), 2, false⟩ := by decide +kernel

/-- Control characters are not counted, even if they are to be shown as two characters; only DEL is. -/
theorem C17_control_fails :
    ellipsifyEx demo (flat (codes' "a\x01\x02b")) 2 .right none true = some ⟨flat (codes' "a\x01\x02b"), 2, false⟩ ∧
    ellipsifyEx demo (flat (codes' "a\x7fb")) 3 .right none true = some ⟨flat (codes' "a…"), 2, true⟩ := by decide +kernel

/-- Paths are not expanded: with DEL they are wider than reported, and reported as not truncated. -/
theorem C17_path_expand_fails : ellipsifyEx demo (flat (codes' "a\x7fb")) 3 .path none true = some ⟨flat (codes' "a\x7fb"), 3, false⟩ ∧
    cellCount demo true (flat (codes' "a\x7fb")) = 4 := by decide +kernel

/-- A variant selector behind the place where the text is cut on the left joins the ellipsis: the reported width is not
the width of the result.  The result can be wider than the limit. -/
theorem C17_variant_fails : ∃ r, ellipsifyEx demo (flat [0x61, 0x1f1e6, 0x1f1e7, 0xfe0f, 0x200d, 0x1f600, 0x63]) 4 .left (some (flat [33])) false = some r ∧
    r.width = 4 ∧ cellCount demo false r.out = 5 :=
  ⟨⟨flat [33, 0xfe0f, 0x200d, 0x1f600, 0x63], 4, true⟩, by decide +kernel, by decide +kernel, by decide +kernel⟩

/-- `ellipsify` drops a code at the end that is not complete, although the text fits. -/
theorem C18_incomplete_fails : ellipsify demo (flat (codes' "abc\x1b[")) 9 false = (flat (codes' "abc"), 3) := by decide +kernel

/-- On the left, a code behind a broken code is not copied; bytes of the broken code are copied instead. -/
theorem C18_broken_fails : ellipsifyEx demo (flat (codes' "abc\x1b[1\x01def")) 2 .left (some (flat [33])) false = some ⟨[27, 33, 102], 2, true⟩ := by
  decide +kernel

end Clink.Ellipsify
