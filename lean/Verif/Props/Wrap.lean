import Verif.Proof.Wrap
import Verif.Props.Ellipsify

/-!
C60: wrapping text puts as many words as fit on each line, and text with control codes can be damaged.

`wrapText env fuel input wrap` are the lines that `ecma48_wrapper` gives for a text and a width, without the newlines
that are added.  A text is `flat cs`; `Glyphs env cs gs` are its characters as they are seen, with their widths.  `fuel`
is the number of steps, and `none` means that they are not enough.  `Spec.Wraps` says what the lines of a text are.
-/

namespace Clink.Wrap
open Doskey.Spec (flat)
open Ellipsify (Env)
open Ellipsify.Spec (Glyphs Plain)
open Ecma48.Spec (Printable)
open Utf (IsText)
open Spec

variable {env : Env}

/-- Text without codes, all of whose characters fit on a line: spaces at the start are dropped, and the rest is wrapped.  If
there is nothing left, there is one empty line. -/
theorem C60_plain {wrap : Nat} {cs : List Nat} {gs : List G} (hz : env.variant 0 = false) (hp : ∀ c ∈ cs, Printable c) (ht : ∀ c ∈ cs, IsText c)
    (hl : (flat cs).length ≤ 65471) (hg : Glyphs env cs gs) (he : Even wrap gs) :
    ∃ lead body ls n, gs = lead ++ body ∧ (∀ g ∈ lead, Space g) ∧ (body = [] ∨ ∃ g, body.head? = some g ∧ ¬ Space g) ∧ Wraps wrap body ls ∧
      ∀ fuel ≥ n, wrapText env fuel (flat cs) wrap = some (if ls = [] then [[]] else ls.map fun l => flat (chars l)) :=
  plain hz hp ht hl hg he

/-- A text can be wrapped in one way only. -/
theorem C60_unique {wrap : Nat} {gs : List G} {ls ls' : List (List G)} (h : Wraps wrap gs ls) (h' : Wraps wrap gs ls') : ls = ls' :=
  wraps_unique h h'

/-- For plain characters: no line is too wide, no line begins or ends with a space, and nothing but spaces is lost. -/
theorem C60_lines {wrap : Nat} {cs : List Nat} (hz : env.variant 0 = false) (hp : ∀ c ∈ cs, Plain env c) (hs : env.wc 32 = 1)
    (hw : ∀ c ∈ cs, wrap ≠ 0 → env.wc c ≤ wrap) (hl : (flat cs).length ≤ 65471) (hx : ∃ c ∈ cs, c ≠ 32) :
    ∃ ls : List (List Nat), ∃ n, (∀ fuel ≥ n, wrapText env fuel (flat cs) wrap = some (ls.map flat)) ∧
      (∀ l ∈ ls, l ≠ [] ∧ l.head? ≠ some 32 ∧ l.getLast? ≠ some 32 ∧ (wrap ≠ 0 → (l.map env.wc).sum ≤ wrap)) ∧
      ls.flatten.filter (· ≠ 32) = cs.filter (· ≠ 32) := by
  have hg := Ellipsify.glyphs_plain cs hp
  obtain ⟨lead, body, ls, n, h1, h2, h3, h4, h5⟩ := C60_plain (wrap := wrap) hz (fun c hc => (hp c hc).printable) (fun c hc => (hp c hc).text) hl hg
    ⟨by
      intro g hg h
      simp only [Ellipsify.singles, List.mem_map] at hg
      obtain ⟨c, hc, rfl⟩ := hg
      simp at h; subst h; rw [hs],
     by
      intro g hg h
      simp only [Ellipsify.singles, List.mem_map] at hg
      obtain ⟨c, hc, rfl⟩ := hg
      have h6 := hw c hc h.1
      have h7 := h.2
      have h8 := (hp c hc).wide
      simp only [width, List.map_cons, List.map_nil, List.sum_cons, List.sum_nil] at h7
      rw [if_neg (by omega)] at h7
      omega⟩
  have hkeep := wraps_keeps h4
  have hline := wraps_line h4
  -- the characters of the lines are single characters
  have hbody : ∀ g ∈ body, ∃ c ∈ cs, g = ([c], env.wc c) := by
    intro g hg
    have : g ∈ Ellipsify.singles env cs := by rw [h1]; simp [hg]
    simp only [Ellipsify.singles, List.mem_map] at this
    obtain ⟨c, hc, rfl⟩ := this
    exact ⟨c, hc, rfl⟩
  have hsub : ∀ {gs : List G} {ls : List (List G)}, Wraps wrap gs ls → ∀ l ∈ ls, ∀ g ∈ l, g ∈ gs := by
    intro gs ls h
    induction h with
    | none _ => simp
    | last _ _ => intro l hl g hg; simp at hl; subst hl; simp [hg]
    | words _ _ _ _ _ _ ih =>
      intro l hl g hg
      rcases List.mem_cons.1 hl with rfl | hl
      · simp [hg]
      · simp [ih l hl g hg]
    | cut _ _ _ _ _ ih =>
      intro l hl g hg
      rcases List.mem_cons.1 hl with rfl | hl
      · simp [hg]
      · exact List.mem_append_right _ (ih l hl g hg)
  have hsingle : ∀ l ∈ ls, ∀ g ∈ l, ∃ c ∈ cs, g = ([c], env.wc c) := fun l hl g hg => hbody g (hsub h4 l hl g hg)
  have hls : ls ≠ [] := by
    rintro rfl
    obtain ⟨c, hc, hc32⟩ := hx
    have hm : (([c], env.wc c) : G) ∈ Ellipsify.singles env cs := by simp only [Ellipsify.singles, List.mem_map]; exact ⟨c, hc, rfl⟩
    rw [h1] at hm
    rcases List.mem_append.1 hm with h | h
    · have : ([c] : List Nat) = [32] := h2 _ h
      simp at this; exact hc32 this
    · have : (([c], env.wc c) : G) ∈ body.filter (fun g => ¬ Space g) := by
        rw [List.mem_filter]; exact ⟨h, by simp [Space, hc32]⟩
      rw [← hkeep] at this
      simp at this
  have hsing : ∀ l ∈ ls, l = Ellipsify.singles env (chars l) := by
    intro l hl
    have h := hsingle l hl
    clear hl
    induction l with
    | nil => rfl
    | cons g l ih =>
      obtain ⟨c, hc, rfl⟩ := h g (by simp)
      have := ih (fun g hg => h g (by simp [hg]))
      have e : chars (([c], env.wc c) :: l) = c :: chars l := by simp [chars]
      rw [e, Ellipsify.singles, List.map_cons]
      exact congrArg _ this
  have hfilter : ∀ l : List Nat, ((Ellipsify.singles env l).filter (fun g => ¬ Space g)) = Ellipsify.singles env (l.filter (· ≠ 32)) := by
    intro l
    induction l with
    | nil => rfl
    | cons c l ih =>
      have e : Ellipsify.singles env (c :: l) = ([c], env.wc c) :: Ellipsify.singles env l := rfl
      by_cases h : c = 32
      · rw [e, List.filter_cons_of_neg (by simp [Space, h]), List.filter_cons_of_neg (by simp [h]), ih]
      · rw [e, List.filter_cons_of_pos (by simp [Space, h]), List.filter_cons_of_pos (by simp [h]), ih]; rfl
  refine ⟨ls.map chars, n, fun fuel hf => by rw [h5 fuel hf, if_neg hls, List.map_map]; rfl, ?_, ?_⟩
  · intro l hl
    obtain ⟨l0, hl0, rfl⟩ := List.mem_map.1 hl
    have hL := hline l0 hl0
    have he := hsing l0 hl0
    obtain ⟨a, ha1, ha2⟩ := hL.first
    obtain ⟨b, hb1, hb2⟩ := hL.last
    have hfits := hL.fits
    have hpl : ∀ c ∈ chars l0, 0 < env.wc c := by
      intro c hc
      simp only [chars, List.mem_flatten, List.mem_map] at hc
      obtain ⟨w, ⟨g, hg, rfl⟩, hc⟩ := hc
      obtain ⟨c', hc', rfl⟩ := hsingle l0 hl0 g hg
      simp at hc; subst hc
      exact (hp c hc').wide
    generalize chars l0 = t at he hpl
    subst he
    refine ⟨?_, ?_, ?_, ?_⟩
    · rintro rfl; simp [Ellipsify.singles] at ha1
    · intro h
      simp only [Ellipsify.singles, List.head?_map, h] at ha1
      simp at ha1; subst ha1; exact ha2 rfl
    · intro h
      simp only [Ellipsify.singles, List.getLast?_map, h] at hb1
      simp at hb1; subst hb1; exact hb2 rfl
    · intro hw0
      have hwid : width (Ellipsify.singles env t) = (t.map env.wc).sum := by
        clear ha1 hb1 hfits hl hl0 hL
        induction t with
        | nil => rfl
        | cons c t ih =>
          have := ih (fun c hc => hpl c (by simp [hc]))
          have hc := hpl c (by simp)
          simp only [width, Ellipsify.singles, List.map_cons, List.sum_cons] at this ⊢
          rw [if_neg (by omega), this]
      have : ¬ (wrap : Int) < width (Ellipsify.singles env t) := fun h => hfits ⟨hw0, h⟩
      omega
  · have e1 : ls.flatten = Ellipsify.singles env (ls.map chars).flatten := by
      clear hkeep hls h4 h5 hsingle hline hx
      induction ls with
      | nil => rfl
      | cons l ls ih =>
        have h6 := hsing l (by simp)
        have h7 := ih (fun l hl => hsing l (by simp [hl]))
        rw [List.flatten_cons, List.map_cons, List.flatten_cons, h7]
        conv => lhs; rw [h6]
        simp [Ellipsify.singles]
    have e2 : (Ellipsify.singles env cs).filter (fun g => ¬ Space g) = body.filter (fun g => ¬ Space g) := by
      rw [h1, List.filter_append, filter_spaces h2, List.nil_append]
    rw [e1, ← e2, hfilter, hfilter] at hkeep
    have inj : ∀ a b : List Nat, Ellipsify.singles env a = Ellipsify.singles env b → a = b := by
      intro a
      induction a with
      | nil => intro b h; cases b with
        | nil => rfl
        | cons c b => simp [Ellipsify.singles] at h
      | cons c a ih => intro b h; cases b with
        | nil => simp [Ellipsify.singles] at h
        | cons d b =>
          simp only [Ellipsify.singles, List.map_cons, List.cons.injEq, Prod.mk.injEq, and_true] at h
          rw [h.1.1, ih b h.2]
    exact inj _ _ hkeep

/-- If the first character is wider than a line, wrapping never ends. -/
theorem C60_stuck {wrap : Nat} {g : G} {gs : List G} (hz : env.variant 0 = false) (hg : Glyphs env (chars (g :: gs)) (g :: gs))
    (hp : ∀ c ∈ chars (g :: gs), Printable c) (ht : ∀ c ∈ chars (g :: gs), IsText c) (hl : (flat (chars (g :: gs))).length ≤ 65471)
    (ho : Over wrap [g]) (hs : g.1.head? ≠ some 32) (fuel : Nat) : wrapText env fuel (flat (chars (g :: gs))) wrap = none := by
  obtain ⟨c, w, hgw⟩ : ∃ c w, g.1 = c :: w := by
    cases h : g.1 with
    | nil => exact absurd h (Ellipsify.glyph_ne (glyphs_head hg))
    | cons c w => exact ⟨c, w, rfl⟩
  have hc32 : c ≠ 32 := by rintro rfl; rw [hgw] at hs; exact hs rfl
  have hsp : spaces (flat (chars (g :: gs))) = 0 := by
    obtain ⟨b, t, h1, h2⟩ := byte_not_space hc32 (flat (w ++ chars gs))
    have e : flat (chars (g :: gs)) = b :: t := by rw [← h1]; simp [chars, flat, hgw]
    rw [e]; simp [spaces, h2]
  obtain ⟨x, hx⟩ := pieces_plain (t := chars (g :: gs)) (by simp [chars, hgw]) hp ht hl
  have hi := stuck_inner hz hg ht ho hs fuel 0 []
  simp only [bytes] at hi
  simp only [wrapText, wrapAt, hsp, List.drop_zero]
  rw [hx]
  simp only [outer, Ellipsify.isChars, beq_self_eq_true, if_true, List.length_nil, Nat.sub_zero, Nat.sub_self]
  rw [hi]
  rfl

/-! ### Text with codes -/

open Ellipsify (demo codes')

/-- Wrapping with `demo`, the tables of the examples. -/
def run' (s : String) (wrap : Nat) : Option (List (List Nat)) := wrapText demo 100 (flat (codes' s)) wrap

def out (ls : List String) : Option (List (List Nat)) := some (ls.map fun s => flat (codes' s))

/-- A code at the end of a line is lost when the next word does not fit. -/
theorem C60_code_lost_violated : run' "ab\x1b[m cd" 3 = out ["ab", "cd"] := by decide +kernel

/-- A code behind a space is torn, and what is behind it is not where it should be. -/
theorem C60_code_torn_violated : run' "ab \x1b[1mcd" 4 = out ["ab \x1b[1", "\x1b[1m", "cd"] := by decide +kernel

/-- A code behind a space at the end of a text is cut off, even if there is no limit. -/
theorem C60_code_end_violated : run' "name \x1b[m" 0 = out ["name \x1b["] := by decide +kernel

/-- When a word behind a code is too long, the code is there twice, and then it is read as text and is torn. -/
theorem C60_code_start_violated : run' "\x1b[1mfoobar" 3 = out ["\x1b[1m", "\x1b[1", "mfo", "oba", "r"] := by decide +kernel

/-! ### Examples -/

theorem sample_plain : ∀ c ∈ codes' "  the quick  brownish 世界 ", Plain demo c := by
  have h : ∀ c ∈ codes' "  the quick  brownish 世界 ", 0x20 ≤ c ∧ c < 0x7f ∨ 0x4e00 ≤ c ∧ c < 0xa000 := by decide +kernel
  intro c hc
  rcases h c hc with h | h
  · exact Ellipsify.demo_plain h.1 h.2
  · exact Ellipsify.demo_plain_wide h.1 h.2

/-- The hypotheses of `C60_lines` hold for a text with words that are too long, spaces everywhere and wide characters. -/
example := C60_lines (wrap := 5) (cs := codes' "  the quick  brownish 世界 ") (env := demo) rfl sample_plain rfl (by decide +kernel) (by decide +kernel)
  ⟨116, by decide +kernel, by decide⟩

/-- Its lines. -/
example : run' "  the quick  brownish 世界 " 5 = out ["the", "quick", "brown", "ish", "世界"] := by decide +kernel
example : run' "  the quick  brownish 世界 " 10 = out ["the quick", "brownish", "世界"] := by decide +kernel
example : run' "  the quick  brownish 世界 " 0 = out ["the quick  brownish 世界"] := by decide +kernel
example : run' "   " 5 = out [""] := by decide +kernel

/-- The hypotheses of `C60_plain` hold for this text. -/
example := C60_plain (wrap := 5) (cs := codes' "ab cd世 ") (gs := Ellipsify.singles demo (codes' "ab cd世 ")) (env := demo) rfl (by unfold Printable; decide +kernel)
  (by decide +kernel) (by decide +kernel)
  (Ellipsify.glyphs_plain _ (by
    have h : ∀ c ∈ codes' "ab cd世 ", 0x20 ≤ c ∧ c < 0x7f ∨ 0x4e00 ≤ c ∧ c < 0xa000 := by decide +kernel
    intro c hc
    rcases h c hc with h | h
    · exact Ellipsify.demo_plain h.1 h.2
    · exact Ellipsify.demo_plain_wide h.1 h.2))
  ⟨by decide +kernel, by unfold Over; decide +kernel⟩

/-- A text that is wrapped by the definition. -/
example : Wraps 3 [([97], 1), ([32], 1), ([98], 1), ([99], 1)] [[([97], 1)], [([98], 1), ([99], 1)]] :=
  .words (l := [([97], 1)]) (sp := [([32], 1)]) (rest := [([98], 1), ([99], 1)]) ⟨⟨_, rfl, by decide⟩, ⟨_, rfl, by decide⟩, by unfold Over; decide⟩
    (by simp) (by decide) (by unfold Over; decide)
    (.last (l := [([98], 1), ([99], 1)]) (sp := []) ⟨⟨_, rfl, by decide⟩, ⟨_, rfl, by decide⟩, by unfold Over; decide⟩ (by simp)) ⟨_, rfl, by decide⟩

/-- A wide character and lines of one cell. -/
example (fuel : Nat) : wrapText demo fuel (flat [0x4e16, 97]) 1 = none :=
  C60_stuck (g := ([0x4e16], 2)) (gs := [([97], 1)]) rfl
    (Ellipsify.glyphs_plain [0x4e16, 97] (by
      intro c hc; simp at hc
      rcases hc with rfl | rfl
      · exact Ellipsify.demo_plain_wide (by omega) (by omega)
      · exact Ellipsify.demo_plain (by omega) (by omega)))
    (by unfold Printable; decide) (by decide) (by decide +kernel) (by unfold Over; decide) (by decide) fuel

/-- Codes are kept if the text fits and no code is behind a space. -/
example : run' "\x1b[1mab\x1b[m cd" 8 = out ["\x1b[1mab\x1b[m cd"] := by decide +kernel

end Clink.Wrap
