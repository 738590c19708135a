import Verif.Model.Wrap
import Verif.Spec.Wrap
import Verif.Proof.EllipsifyCut
/-
Proofs about wrapping text without control codes.
-/
namespace Clink.Wrap
open Doskey (peek)
open Doskey.Spec (flat)
open Ellipsify (Env oneRun clen isChars piecesAt)
open Ecma48 (bufferLimit)
open Ecma48.Spec (Printable)
open Ellipsify.Spec (Glyphs Glyph)
open Utf (IsText)
open Spec

variable {env : Env}

/-- The bytes of characters. -/
def bytes (l : List G) : List Nat := flat (chars l)

def len (l : List G) : Nat := (bytes l).length

theorem bytes_append (a b : List G) : bytes (a ++ b) = bytes a ++ bytes b := by simp [bytes, chars, flat]

theorem len_append (a b : List G) : len (a ++ b) = len a + len b := by simp [len, bytes_append]

theorem len_nil : len [] = 0 := rfl

theorem width_append (a b : List G) : width (a ++ b) = width a + width b := by simp [width]

theorem width_nonneg (a : List G) : 0 ≤ width a := by
  induction a with
  | nil => simp [width]
  | cons g a ih =>
    have e : width (g :: a) = (if g.2 < 0 then 1 else g.2) + width a := by simp [width]
    rw [e]
    split <;> omega

theorem width_one (g : G) : width [g] = clen false g.2 := by simp [width, clen]

theorem over_mono {wrap : Nat} {a b : List G} (h : Over wrap a) : Over wrap (a ++ b) := by
  have := width_nonneg b
  refine ⟨h.1, ?_⟩
  have := h.2
  rw [width_append]; omega

theorem not_over_left {wrap : Nat} {a b : List G} (h : ¬ Over wrap (a ++ b)) : ¬ Over wrap a :=
  fun h' => h (over_mono h')

theorem glyphs_suffix (a : List G) : ∀ {cs : List Nat} {b : List G}, Glyphs env cs (a ++ b) → Glyphs env (chars b) b := by
  induction a with
  | nil =>
    intro cs b h
    have e : chars b = cs := Ellipsify.glyphs_text h
    rw [e]; exact h
  | cons g a ih =>
    intro cs b h
    cases h with
    | cons h1 h2 => exact ih h2

theorem glyphs_head {g : G} {b : List G} (h : Glyphs env (chars (g :: b)) (g :: b)) :
    Glyph env g.1 (chars b) g.2 := by
  generalize hc : chars (g :: b) = cs at h
  cases h with
  | @cons w rest n gs h1 h2 =>
    have e : chars b = rest := Ellipsify.glyphs_text h2
    rw [e]; exact h1

/-- The state of the loop: `A` is on lines that are done, `T ++ S ++ W` is read, `R` is not. -/
structure Inv (wrap : Nat) (A T S W R : List G) (p : Nat) (st : St) : Prop where
  s : st.s = len A
  p : p = len A + len T + len S + len W
  cells : st.cells = width (T ++ S ++ W)
  room : ¬ Over wrap (T ++ S ++ W)
  fits : st.fits = len A + len T
  word : st.word = if W = [] then len A + len T else len A + len T + len S + len W
  next : S ≠ [] → st.next = len A + len T + len S
  sp : ∀ g ∈ S, Space g
  w : ∀ g ∈ W, ¬ Space g
  shape : (T = [] ∧ S = []) ∨ (S ≠ [] ∧ (∃ g, T.head? = some g ∧ ¬ Space g) ∧ ∃ g, T.getLast? = some g ∧ ¬ Space g)
  start : T = [] → W = [] → R = [] ∨ ∃ g, R.head? = some g ∧ ¬ Space g

/-- The bytes of a line. -/
def slice (text : List Nat) (l : Nat × Nat) : List Nat := (text.drop l.1).take l.2

theorem slice_mid (a b c : List G) : slice (bytes (a ++ b ++ c)) (len a, len a + len b - len a) = bytes b := by
  have e : len a + len b - len a = (bytes b).length := by unfold len; omega
  rw [slice, e, List.append_assoc, bytes_append, bytes_append, len]
  simp

/-- The lines at the end of the text. -/
def final (st : St) : List (Nat × Nat) := if st.fits > st.s then st.lines ++ [(st.s, st.fits - st.s)] else st.lines

theorem byte_not_space {c : Nat} (h : c ≠ 32) (r : List Nat) : ∃ b t, Utf.specUtf8 c ++ r = b :: t ∧ b ≠ 32 := by
  unfold Utf.specUtf8
  split
  · exact ⟨c, r, by simp, h⟩
  · split
    · exact ⟨_, _, by simp; exact ⟨rfl, rfl⟩, by omega⟩
    · split
      · exact ⟨_, _, by simp; exact ⟨rfl, rfl⟩, by omega⟩
      · exact ⟨_, _, by simp; exact ⟨rfl, rfl⟩, by omega⟩

theorem space_eq {wrap : Nat} {gs : List G} (he : Even wrap gs) {g : G} (hg : g ∈ gs) (hs : Space g) : g = ([32], 1) :=
  he.spaces g hg (by rw [hs]; rfl)

/-- The spaces at the start of characters. -/
theorem spaces_split {wrap : Nat} {gs : List G} (he : Even wrap gs) (hne : ∀ g ∈ gs, g.1 ≠ []) (R : List G) (hR : ∀ g ∈ R, g ∈ gs) :
    ∃ K M : List G, R = K ++ M ∧ (∀ g ∈ K, Space g) ∧ (M = [] ∨ ∃ g, M.head? = some g ∧ ¬ Space g) ∧ spaces (bytes R) = len K := by
  induction R with
  | nil => exact ⟨[], [], rfl, by simp, .inl rfl, rfl⟩
  | cons g R ih =>
    by_cases hs : Space g
    · obtain ⟨K, M, h1, h2, h3, h4⟩ := ih (fun x hx => hR x (by simp [hx]))
      have hg := space_eq he (hR g (by simp)) hs
      refine ⟨g :: K, M, by rw [h1]; rfl, ?_, h3, ?_⟩
      · intro x hx
        rcases List.mem_cons.1 hx with rfl | hx
        · exact hs
        · exact h2 x hx
      · have e1 : bytes (g :: R) = 32 :: bytes R := by
          rw [hg]; simp [bytes, chars, flat, Utf.specUtf8]
        have e2 : len (g :: K) = len K + 1 := by
          rw [hg]; simp [len, bytes, chars, flat, Utf.specUtf8]
        rw [e1, e2, spaces, if_pos rfl, h4]
    · refine ⟨[], g :: R, rfl, by simp, .inr ⟨g, rfl, hs⟩, ?_⟩
      obtain ⟨w, n⟩ := g
      cases w with
      | nil => exact absurd rfl (hne ([], n) (hR ([], n) (by simp)))
      | cons c w =>
        have hc : c ≠ 32 := by
          intro e
          have := he.spaces (c :: w, n) (hR (c :: w, n) (by simp)) (by rw [e]; rfl)
          exact hs (by rw [this]; rfl)
        obtain ⟨b, t, hb, hb2⟩ := byte_not_space hc (flat (w ++ chars R))
        have e1 : bytes ((c :: w, n) :: R) = b :: t := by
          rw [← hb]; simp [bytes, chars, flat]
        rw [e1, spaces, if_neg hb2]; rfl

theorem spaces_zero {wrap : Nat} {gs : List G} (he : Even wrap gs) (hne : ∀ g ∈ gs, g.1 ≠ []) (R : List G) (hR : ∀ g ∈ R, g ∈ gs)
    (h : ∃ g, R.head? = some g ∧ ¬ Space g) : spaces (bytes R) = 0 := by
  obtain ⟨K, M, h1, h2, _, h4⟩ := spaces_split he hne R hR
  obtain ⟨g, hg, hs⟩ := h
  cases K with
  | nil => rw [h4]; rfl
  | cons k K =>
    rw [h1] at hg
    simp at hg
    exact absurd (h2 k (by simp)) (by rw [hg]; exact hs)

theorem wraps_nil {wrap : Nat} {ls : List (List G)} (h : Wraps wrap [] ls) : ls = [] := by
  generalize hx : ([] : List G) = x at h
  cases h with
  | none _ => rfl
  | last h _ =>
    obtain ⟨g, hg, _⟩ := h.first
    have := (List.append_eq_nil_iff.1 hx.symm).1
    rw [this] at hg; simp at hg
  | words h _ _ _ _ _ =>
    obtain ⟨g, hg, _⟩ := h.first
    have := (List.append_eq_nil_iff.1 (List.append_eq_nil_iff.1 hx.symm).1).1
    rw [this] at hg; simp at hg
  | cut h _ _ _ _ => simp at hx

theorem inner_mono (text : List Nat) (wrap stop : Nat) (fuel : Nat) : ∀ (p : Nat) (st st' : St) (k : Nat),
    inner env text wrap stop fuel p st = some st' → inner env text wrap stop (fuel + k) p st = some st' := by
  induction fuel with
  | zero => intro p st st' k h; simp [inner] at h
  | succ fuel ih =>
    intro p st st' k h
    have e : fuel + 1 + k = (fuel + k) + 1 := by omega
    rw [e]
    by_cases hc : peek ((text.take stop).drop p) = 0
    · unfold inner at h ⊢
      simp only [hc, if_true] at h ⊢
      exact h
    · have hu : ∀ m, inner env text wrap stop (m + 1) p st =
          (let l := (text.take stop).drop p
           let q := stop - (oneRun env l).2.length
           let w := clen false (oneRun env l).1
           let st1 := if peek l = 32 then { st with fits := st.word, next := q } else st
           if wrap ≠ 0 ∧ st1.cells + w > wrap then inner env text wrap stop m (flush text st1).s (flush text st1)
           else inner env text wrap stop m q
             { st1 with cells := st1.cells + w, word := if peek l ≠ 32 then q else st1.word }) := by
        intro m
        conv => lhs; unfold inner
        simp only [hc, if_false]
      rw [hu] at h ⊢
      simp only at h ⊢
      generalize (if peek ((text.take stop).drop p) = 32 then
        { st with fits := st.word, next := stop - (oneRun env ((text.take stop).drop p)).2.length } else st) = st1 at h ⊢
      by_cases ho : wrap ≠ 0 ∧ st1.cells + clen false (oneRun env ((text.take stop).drop p)).1 > wrap
      · rw [if_pos ho] at h ⊢; exact ih _ _ _ k h
      · rw [if_neg ho] at h ⊢; exact ih _ _ _ k h

theorem len_pos {gs : List G} (hne : ∀ g ∈ gs, g.1 ≠ []) {T : List G} (hT : ∀ g ∈ T, g ∈ gs) (h : T ≠ []) : 0 < len T := by
  cases T with
  | nil => exact absurd rfl h
  | cons g T =>
    have h1 := hne g (hT g (by simp))
    obtain ⟨w, n⟩ := g
    cases w with
    | nil => exact absurd rfl h1
    | cons c w =>
      obtain ⟨b, t, hb, _⟩ : ∃ b t, Utf.specUtf8 c ++ flat (w ++ chars T) = b :: t ∧ True := by
        by_cases h : c = 32
        · exact ⟨32, _, by rw [h]; rfl, trivial⟩
        · obtain ⟨b, t, h1, _⟩ := byte_not_space h (flat (w ++ chars T)); exact ⟨b, t, h1, trivial⟩
      have e : bytes ((c :: w, n) :: T) = b :: t := by rw [← hb]; simp [bytes, chars, flat]
      rw [len, e]; simp

/-- A new line begins. -/
theorem inv_new {wrap : Nat} {A M : List G} {st : St} (hs : st.s = len A) (hf : st.fits = st.s) (hw : st.word = st.s)
    (hc : st.cells = 0) (hM : M = [] ∨ ∃ g, M.head? = some g ∧ ¬ Space g) : Inv wrap A [] [] [] M st.s st := by
  refine ⟨hs, by simp [len_nil, hs], by simp [hc, width], ?_, by simp [len_nil, hf, hs], by simp [len_nil, hw, hs], by simp, by simp,
    by simp, .inl ⟨rfl, rfl⟩, fun _ _ => hM⟩
  rintro ⟨_, h⟩
  simp [width] at h
  omega

theorem run {wrap : Nat} {gs : List G} (hz : env.variant 0 = false) (he : Even wrap gs) (hg : Glyphs env (chars gs) gs)
    (ht : ∀ c ∈ chars gs, IsText c) (n : Nat) :
    ∀ (R A T S W : List G) (st : St) (p : Nat), gs = A ++ T ++ S ++ W ++ R → (T ++ S ++ W ++ R).length ≤ n →
      Inv wrap A T S W R p st →
      ∃ fuel st' ls, inner env (bytes gs) wrap (bytes gs).length fuel p st = some st' ∧ Wraps wrap (T ++ S ++ W ++ R) ls ∧
        (final st').map (slice (bytes gs)) = st.lines.map (slice (bytes gs)) ++ ls.map bytes := by
  have hne : ∀ g ∈ gs, g.1 ≠ [] := by
    intro g hgm
    obtain ⟨a, b, rfl⟩ := List.append_of_mem hgm
    exact Ellipsify.glyph_ne (glyphs_head (glyphs_suffix a hg))
  induction n with
  | zero =>
    intro R A T S W st p hgs hn hi
    have e : T ++ S ++ W ++ R = [] := List.eq_nil_of_length_eq_zero (by omega)
    have e1 := (List.append_eq_nil_iff.1 e)
    have e2 := (List.append_eq_nil_iff.1 e1.1)
    have e3 := (List.append_eq_nil_iff.1 e2.1)
    obtain ⟨rfl, rfl, rfl, rfl⟩ : T = [] ∧ S = [] ∧ W = [] ∧ R = [] := ⟨e3.1, e3.2, e2.2, e1.2⟩
    have hp : p = (bytes gs).length := by
      have := hi.p
      have e : (bytes gs).length = len gs := rfl
      rw [e, hgs]
      simpa [len_nil] using this
    refine ⟨1, { st with fits := st.word, next := p }, [], ?_, .none (by simp), ?_⟩
    · rw [hp]
      unfold inner
      simp [show peek [] = 0 from rfl]
    · have h1 := hi.word
      have h2 := hi.s
      simp only [if_true, len_nil] at h1
      have : ¬ st.word > st.s := by omega
      simp [final, this]
  | succ n ihn =>
    intro R
    induction R with
    | nil =>
      intro A T S W st p hgs hn hi
      have hp : p = (bytes gs).length := by
        have := hi.p
        have e : (bytes gs).length = len gs := rfl
        rw [e, hgs, List.append_nil, len_append, len_append, len_append]
        omega
      have hend : inner env (bytes gs) wrap (bytes gs).length 1 p st = some { st with fits := st.word, next := p } := by
        rw [hp]
        unfold inner
        simp [show peek [] = 0 from rfl]
      have hmT : ∀ g ∈ T, g ∈ gs := fun g h => by rw [hgs]; simp [h]
      have hmW : ∀ g ∈ W, g ∈ gs := fun g h => by rw [hgs]; simp [h]
      have hword := hi.word
      have hs := hi.s
      by_cases hW : W = []
      · subst hW
        simp only [if_true] at hword
        rcases hi.shape with ⟨rfl, rfl⟩ | ⟨hS, hT1, hT2⟩
        · refine ⟨1, _, [], hend, .none (by simp), ?_⟩
          rw [len_nil] at hword
          have : ¬ st.word > st.s := by omega
          simp [final, this]
        · have hTne : T ≠ [] := by rintro rfl; obtain ⟨g, h, _⟩ := hT1; simp at h
          have hpos := len_pos hne hmT hTne
          refine ⟨1, _, [T], hend, ?_, ?_⟩
          · have hl : Line wrap T := ⟨hT1, hT2, not_over_left (not_over_left hi.room)⟩
            have := Wraps.last (sp := S) hl hi.sp
            simpa using this
          · have h1 : st.word > st.s := by omega
            have h2 : slice (bytes gs) (st.s, st.word - st.s) = bytes T := by
              rw [hs, hword, hgs]
              have := slice_mid A T (S ++ [] ++ [])
              simpa [List.append_assoc] using this
            simp [final, h1, h2]
      · rw [if_neg hW] at hword
        have hWpos := len_pos hne hmW hW
        refine ⟨1, _, [T ++ S ++ W], hend, ?_, ?_⟩
        · have hl : Line wrap (T ++ S ++ W) := by
            refine ⟨?_, ?_, hi.room⟩
            · rcases hi.shape with ⟨rfl, rfl⟩ | ⟨_, ⟨g, h1, h2⟩, _⟩
              · cases W with
                | nil => exact absurd rfl hW
                | cons g W => exact ⟨g, rfl, hi.w g (by simp)⟩
              · refine ⟨g, ?_, h2⟩
                cases T with
                | nil => simp at h1
                | cons a T => simpa using h1
            · obtain ⟨g, hgl⟩ : ∃ g, W.getLast? = some g := by
                cases h : W.getLast? with
                | none => exact absurd (List.getLast?_eq_none_iff.1 h) hW
                | some g => exact ⟨g, rfl⟩
              refine ⟨g, ?_, hi.w g (List.mem_of_getLast? hgl)⟩
              rw [List.getLast?_append, hgl]; rfl
          have := Wraps.last (sp := []) hl (by simp)
          simpa using this
        · have h1 : st.word > st.s := by omega
          have h2 : slice (bytes gs) (st.s, st.word - st.s) = bytes (T ++ S ++ W) := by
            have := slice_mid A (T ++ S ++ W) []
            rw [hs, hword, hgs]
            rw [len_append, len_append] at this
            simpa [List.append_assoc, Nat.add_assoc] using this
          simp [final, h1, h2]
    | cons g R ihR =>
      intro A T S W st p hgs hn hi
      have hmem : ∀ x, x ∈ A ++ T ++ S ++ W ++ g :: R → x ∈ gs := fun x h => by rw [hgs]; exact h
      have hmT : ∀ g ∈ T, g ∈ gs := fun x h => hmem x (by simp [h])
      have hmW : ∀ g ∈ W, g ∈ gs := fun x h => hmem x (by simp [h])
      have hmR : ∀ g ∈ R, g ∈ gs := fun x h => hmem x (by simp [h])
      have hgm : g ∈ gs := hmem g (by simp)
      have hs := hi.s
      -- what is read
      have hp : p = len (A ++ T ++ S ++ W) := by
        have := hi.p; rw [len_append, len_append, len_append]; omega
      have hl : ((bytes gs).take (bytes gs).length).drop p = bytes (g :: R) := by
        rw [List.take_length, hgs, bytes_append, hp, len]
        simp
      have hgly : Glyphs env (chars (g :: R)) (g :: R) := by rw [hgs] at hg; exact glyphs_suffix _ hg
      have hglyph := glyphs_head hgly
      have htR : ∀ c ∈ g.1 ++ chars R, IsText c := by
        intro c hc
        refine ht c ?_
        have e : chars gs = chars (A ++ T ++ S ++ W) ++ (g.1 ++ chars R) := by rw [hgs]; simp [chars]
        rw [e]; simp only [List.mem_append] at hc ⊢; exact .inr hc
      have hrun : oneRun env (bytes (g :: R)) = (g.2, bytes R) := by
        have := Ellipsify.oneRun_go hz hglyph htR
        have e : bytes (g :: R) = flat (g.1 ++ chars R) := by simp [bytes, chars]
        rw [e, this]; rfl
      obtain ⟨c, w, hgw⟩ : ∃ c w, g.1 = c :: w := by
        cases h : g.1 with
        | nil => exact absurd h (hne g hgm)
        | cons c w => exact ⟨c, w, rfl⟩
      have hct : IsText c := htR c (by rw [hgw]; simp)
      have hpeek : peek (bytes (g :: R)) = c := by
        have e : bytes (g :: R) = flat (c :: (w ++ chars R)) := by simp [bytes, chars, hgw]
        rw [e]; exact Ellipsify.peek_cons hct
      have hc0 : c ≠ 0 := by have := hct.1; omega
      have hq : (bytes gs).length - (bytes R).length = p + len [g] := by
        have e : (bytes gs).length = len gs := rfl
        have e2 : (bytes R).length = len R := rfl
        have e3 : A ++ T ++ S ++ W ++ g :: R = (A ++ T ++ S ++ W) ++ [g] ++ R := by simp
        rw [e, e2, hgs, e3, len_append, len_append, ← hp]; omega
      have hgs' : gs = A ++ T ++ S ++ W ++ [g] ++ R := by rw [hgs]; simp
      have hspace : Space g ↔ c = 32 := by
        constructor
        · intro h
          have : g.1 = [32] := h
          rw [hgw] at this; simp at this; exact this.1
        · intro h
          have := he.spaces g hgm (by rw [hgw, h]; rfl)
          rw [this]; rfl
      have hstep : ∀ fuel, inner env (bytes gs) wrap (bytes gs).length (fuel + 1) p st =
          (let st1 := if c = 32 then { st with fits := st.word, next := p + len [g] } else st
           if wrap ≠ 0 ∧ st1.cells + width [g] > wrap then
             inner env (bytes gs) wrap (bytes gs).length fuel (flush (bytes gs) st1).s (flush (bytes gs) st1)
           else inner env (bytes gs) wrap (bytes gs).length fuel (p + len [g])
             { st1 with cells := st1.cells + width [g], word := if c ≠ 32 then p + len [g] else st1.word }) := by
        intro fuel
        conv => lhs; unfold inner
        simp only [hl, hpeek, hc0, if_false, hrun, hq, width_one]
      have hnarrow := he.narrow g hgm
      have hcells := hi.cells
      by_cases hsp : Space g
      · -- a space
        have hc32 := hspace.1 hsp
        subst hc32
        -- what was read is not empty
        obtain ⟨L, K, hLK, hK, hline, hword⟩ : ∃ L K : List G, T ++ S ++ W = L ++ K ∧ (∀ g ∈ K, Space g) ∧ Line wrap L ∧
            st.word = len A + len L := by
          by_cases hW : W = []
          · subst hW
            have hword := hi.word
            simp only [if_true] at hword
            rcases hi.shape with ⟨rfl, rfl⟩ | ⟨_, hT1, hT2⟩
            · rcases hi.start rfl rfl with h | ⟨x, h1, h2⟩
              · simp at h
              · simp at h1; subst h1; exact absurd hsp h2
            · exact ⟨T, S, by simp, hi.sp, ⟨hT1, hT2, not_over_left (not_over_left hi.room)⟩, hword⟩
          · have hword := hi.word
            rw [if_neg hW] at hword
            refine ⟨T ++ S ++ W, [], by simp, by simp, ⟨?_, ?_, hi.room⟩, ?_⟩
            · rcases hi.shape with ⟨rfl, rfl⟩ | ⟨_, ⟨g, h1, h2⟩, _⟩
              · cases W with
                | nil => exact absurd rfl hW
                | cons g W => exact ⟨g, rfl, hi.w g (by simp)⟩
              · refine ⟨g, ?_, h2⟩
                cases T with
                | nil => simp at h1
                | cons a T => simpa using h1
            · obtain ⟨g, hgl⟩ : ∃ g, W.getLast? = some g := by
                cases h : W.getLast? with
                | none => exact absurd (List.getLast?_eq_none_iff.1 h) hW
                | some g => exact ⟨g, rfl⟩
              refine ⟨g, ?_, hi.w g (List.mem_of_getLast? hgl)⟩
              rw [List.getLast?_append, hgl]; rfl
            · rw [hword, len_append, len_append]; omega
        have hLne : L ≠ [] := by rintro rfl; obtain ⟨g, h, _⟩ := hline.first; simp at h
        have hmL : ∀ g ∈ L, g ∈ gs := fun x h => by
          have : x ∈ T ++ S ++ W := by rw [hLK]; simp [h]
          exact hmem x (by simp only [List.mem_append] at this ⊢; rcases this with (h | h) | h <;> simp [h])
        have hLpos := len_pos hne hmL hLne
        by_cases hov : wrap ≠ 0 ∧ st.cells + width [g] > wrap
        · -- it does not fit
          obtain ⟨M1, M2, hM, hM1, hM2, hsps⟩ := spaces_split he hne R hmR
          have hpl : p + len [g] = len (A ++ T ++ S ++ W ++ [g]) := by rw [len_append, ← hp]
          have hdrop : (bytes gs).drop (p + len [g]) = bytes R := by
            rw [hgs', bytes_append, hpl, len]; simp
          have hfl : flush (bytes gs) { st with fits := st.word, next := p + len [g] } =
              { s := p + len [g] + len M1, fits := p + len [g] + len M1, word := p + len [g] + len M1, next := p + len [g], cells := 0,
                lines := st.lines ++ [(st.s, st.word - st.s)] } := by
            have : ¬ st.word ≤ st.s := by omega
            simp [flush, this, hdrop, hsps]
          have hover : Over wrap (L ++ K ++ [g]) := by
            refine ⟨hov.1, ?_⟩
            rw [width_append, ← hLK, ← hcells]; have := hov.2; omega
          obtain ⟨fuel, st', ls, h1, h2, h3⟩ := ihn M2 (A ++ T ++ S ++ W ++ [g] ++ M1) [] [] []
            (flush (bytes gs) { st with fits := st.word, next := p + len [g] }) (p + len [g] + len M1)
            (by rw [hgs', hM]; simp)
            (by
              have : R.length = M1.length + M2.length := by rw [hM]; simp
              simp only [List.length_append, List.length_cons, List.nil_append] at hn ⊢
              omega)
            (by
              have := inv_new (wrap := wrap) (A := A ++ T ++ S ++ W ++ [g] ++ M1) (M := M2)
                (st := flush (bytes gs) { st with fits := st.word, next := p + len [g] })
                (by rw [hfl]; simp only; rw [len_append, ← hpl]) (by rw [hfl]) (by rw [hfl]) (by rw [hfl]) hM2
              rw [hfl] at this ⊢
              exact this)
          simp only [List.nil_append] at h2
          have hsl : slice (bytes gs) (st.s, st.word - st.s) = bytes L := by
            have := slice_mid A L (K ++ g :: R)
            have e : A ++ L ++ (K ++ g :: R) = gs := by
              rw [hgs, List.append_assoc, ← List.append_assoc L, ← hLK]; simp
            rw [e] at this
            rw [hs, hword]; exact this
          refine ⟨fuel + 1, st', L :: ls, ?_, ?_, ?_⟩
          · rw [hstep fuel]
            simp only [if_true]
            rw [if_pos hov]
            have : (flush (bytes gs) { st with fits := st.word, next := p + len [g] }).s = p + len [g] + len M1 := by rw [hfl]
            rw [this]
            exact h1
          · have e : T ++ S ++ W ++ g :: R = L ++ (K ++ g :: M1) ++ M2 := by rw [hLK, hM]; simp
            have hall : ∀ x ∈ K ++ g :: M1, Space x := by
              intro x hx
              rcases List.mem_append.1 hx with h | h
              · exact hK x h
              · rcases List.mem_cons.1 h with rfl | h
                · exact hsp
                · exact hM1 x h
            rw [e]
            rcases hM2 with hM2 | hM2
            · subst hM2
              have := wraps_nil h2
              subst this
              simpa using Wraps.last hline hall
            · refine Wraps.words hline (by simp) hall ?_ h2 hM2
              have e2 : L ++ (K ++ g :: M1) ++ word M2 = (L ++ K ++ [g]) ++ (M1 ++ word M2) := by simp
              rw [e2]; exact over_mono hover
          · rw [h3, hfl]
            simp [hsl]
        · -- it fits
          have hroom : ¬ Over wrap (L ++ (K ++ [g])) := by
            rintro ⟨h1, h2⟩
            refine hov ⟨h1, ?_⟩
            rw [← List.append_assoc, width_append, ← hLK, ← hcells] at h2; omega
          have e0 : L ++ (K ++ [g]) ++ [] ++ R = T ++ S ++ W ++ g :: R := by rw [hLK]; simp
          have hlen : len T + len S + len W = len L + len K := by
            rw [← len_append, ← len_append, ← len_append, hLK]
          obtain ⟨fuel, st', ls, h1, h2, h3⟩ := ihR A L (K ++ [g]) []
            { st with fits := st.word, next := p + len [g], cells := st.cells + width [g], word := st.word } (p + len [g])
            (by
              have : A ++ L ++ (K ++ [g]) ++ [] ++ R = A ++ (L ++ (K ++ [g]) ++ [] ++ R) := by simp
              rw [hgs, this, e0]; simp)
            (by rw [e0]; exact hn)
            (by
              refine ⟨hs, ?_, ?_, by simpa using hroom, hword, by simpa using hword, ?_, ?_, by simp, ?_, ?_⟩
              · have := hi.p
                rw [len_append, len_nil]; omega
              · simp only
                rw [hcells, hLK, List.append_nil, ← List.append_assoc, width_append (L ++ K)]
              · intro _
                have := hi.p
                simp only
                rw [len_append]; omega
              · intro x hx
                rcases List.mem_append.1 hx with h | h
                · exact hK x h
                · simp at h; subst h; exact hsp
              · exact .inr ⟨by simp, hline.first, hline.last⟩
              · intro h; exact absurd h hLne)
          refine ⟨fuel + 1, st', ls, ?_, by rw [← e0]; exact h2, h3⟩
          rw [hstep fuel]
          simp only [if_true]
          rw [if_neg hov]
          simpa using h1
      · -- not a space
        have hc32 : c ≠ 32 := fun h => hsp (hspace.2 h)
        by_cases hov : wrap ≠ 0 ∧ st.cells + width [g] > wrap
        · have hover : Over wrap (T ++ S ++ W ++ [g]) := by
            refine ⟨hov.1, ?_⟩
            rw [width_append, ← hcells]; have := hov.2; omega
          by_cases hS : S = []
          · -- one word
            have hT : T = [] := by
              rcases hi.shape with h | h
              · exact h.1
              · exact absurd hS h.1
            subst hT hS
            simp only [List.nil_append] at hover
            have hW : W ≠ [] := by rintro rfl; exact hnarrow (by simpa using hover)
            have hword := hi.word
            rw [if_neg hW] at hword
            simp only [len_nil, Nat.add_zero] at hword
            have hfits := hi.fits
            simp only [len_nil, Nat.add_zero] at hfits
            have hWpos := len_pos hne hmW hW
            have hAW : st.word = len (A ++ W) := by rw [len_append]; exact hword
            have hdrop : (bytes gs).drop st.word = bytes (g :: R) := by
              have e : gs = (A ++ W) ++ g :: R := by rw [hgs]; simp
              rw [e, bytes_append, hAW, len]; simp
            have hz0 : spaces (bytes (g :: R)) = 0 :=
              spaces_zero he hne (g :: R) (fun x hx => by
                rcases List.mem_cons.1 hx with rfl | h
                · exact hgm
                · exact hmR x h) ⟨g, rfl, hsp⟩
            have hfl : flush (bytes gs) st =
                { s := st.word, fits := st.word, word := st.word, next := st.word, cells := 0,
                  lines := st.lines ++ [(st.s, st.word - st.s)] } := by
              have : st.fits ≤ st.s := by omega
              simp [flush, this, hdrop, hz0]
            obtain ⟨fuel, st', ls, h1, h2, h3⟩ := ihn (g :: R) (A ++ W) [] [] [] (flush (bytes gs) st) st.word
              (by rw [hgs]; simp)
              (by
                have : 0 < W.length := List.length_pos_iff.2 hW
                simp only [List.length_append, List.length_cons, List.nil_append] at hn ⊢
                omega)
              (by
                have := inv_new (wrap := wrap) (A := A ++ W) (M := g :: R) (st := flush (bytes gs) st)
                  (by rw [hfl]; exact hAW) (by rw [hfl]) (by rw [hfl]) (by rw [hfl]) (.inr ⟨g, rfl, hsp⟩)
                rw [hfl] at this ⊢
                exact this)
            simp only [List.nil_append] at h2
            have hsl : slice (bytes gs) (st.s, st.word - st.s) = bytes W := by
              have := slice_mid A W (g :: R)
              have e : A ++ W ++ g :: R = gs := by rw [hgs]; simp
              rw [e] at this
              rw [hs, hword]; exact this
            have hroom := hi.room
            simp only [List.nil_append] at hroom
            have hline : Line wrap W := by
              refine ⟨?_, ?_, hroom⟩
              · cases W with
                | nil => exact absurd rfl hW
                | cons g W => exact ⟨g, rfl, hi.w g (by simp)⟩
              · cases h : W.getLast? with
                | none => exact absurd (List.getLast?_eq_none_iff.1 h) hW
                | some g => exact ⟨g, rfl, hi.w g (List.mem_of_getLast? h)⟩
            refine ⟨fuel + 1, st', W :: ls, ?_, ?_, ?_⟩
            · rw [hstep fuel]
              simp only [hc32, if_false]
              rw [if_pos hov]
              have : (flush (bytes gs) st).s = st.word := by rw [hfl]
              rw [this]
              exact h1
            · simpa using Wraps.cut hline hi.w hsp hover h2
            · rw [h3, hfl]
              simp [hsl]
          · -- the last word goes to the next line
            obtain ⟨_, hT1, hT2⟩ : S ≠ [] ∧ (∃ g, T.head? = some g ∧ ¬ Space g) ∧ ∃ g, T.getLast? = some g ∧ ¬ Space g := by
              rcases hi.shape with h | h
              · exact absurd h.2 hS
              · exact h
            have hTne : T ≠ [] := by rintro rfl; obtain ⟨g, h, _⟩ := hT1; simp at h
            have hTpos := len_pos hne hmT hTne
            have hfits := hi.fits
            have hnext := hi.next hS
            have hpn : st.next = len (A ++ T ++ S) := by rw [len_append, len_append]; exact hnext
            have hWhead : ∃ x, (W ++ g :: R).head? = some x ∧ ¬ Space x := by
              cases W with
              | nil => exact ⟨g, rfl, hsp⟩
              | cons a W => exact ⟨a, rfl, hi.w a (by simp)⟩
            have hdrop : (bytes gs).drop st.next = bytes (W ++ g :: R) := by
              have e : gs = (A ++ T ++ S) ++ (W ++ g :: R) := by rw [hgs]; simp
              rw [e, bytes_append, hpn, len]; simp
            have hz0 : spaces (bytes (W ++ g :: R)) = 0 :=
              spaces_zero he hne (W ++ g :: R) (fun x hx => hmem x (by
                simp only [List.mem_append] at hx ⊢; rcases hx with h | h <;> simp [h])) hWhead
            have hfl : flush (bytes gs) st =
                { s := st.next, fits := st.next, word := st.next, next := st.next, cells := 0,
                  lines := st.lines ++ [(st.s, st.fits - st.s)] } := by
              have : ¬ st.fits ≤ st.s := by omega
              simp [flush, this, hdrop, hz0]
            obtain ⟨fuel, st', ls, h1, h2, h3⟩ := ihn (W ++ g :: R) (A ++ T ++ S) [] [] [] (flush (bytes gs) st) st.next
              (by rw [hgs]; simp)
              (by
                have : 0 < T.length := List.length_pos_iff.2 hTne
                simp only [List.length_append, List.length_cons, List.nil_append] at hn ⊢
                omega)
              (by
                have := inv_new (wrap := wrap) (A := A ++ T ++ S) (M := W ++ g :: R) (st := flush (bytes gs) st)
                  (by rw [hfl]; exact hpn) (by rw [hfl]) (by rw [hfl]) (by rw [hfl]) (.inr hWhead)
                rw [hfl] at this ⊢
                exact this)
            simp only [List.nil_append] at h2
            have hsl : slice (bytes gs) (st.s, st.fits - st.s) = bytes T := by
              have := slice_mid A T (S ++ W ++ g :: R)
              have e : A ++ T ++ (S ++ W ++ g :: R) = gs := by rw [hgs]; simp
              rw [e] at this
              rw [hs, hfits]; exact this
            refine ⟨fuel + 1, st', T :: ls, ?_, ?_, ?_⟩
            · rw [hstep fuel]
              simp only [hc32, if_false]
              rw [if_pos hov]
              have : (flush (bytes gs) st).s = st.next := by rw [hfl]
              rw [this]
              exact h1
            · have e : T ++ S ++ W ++ g :: R = T ++ S ++ (W ++ g :: R) := by simp
              rw [e]
              refine Wraps.words ⟨hT1, hT2, not_over_left (not_over_left hi.room)⟩ hS hi.sp ?_ h2 hWhead
              have e2 : word (W ++ g :: R) = W ++ [g] ++ word R := by
                unfold word
                rw [List.takeWhile_append_of_pos (by intro a ha; simpa using hi.w a ha), List.takeWhile_cons_of_pos (by simpa using hsp)]
                simp
              have e3 : T ++ S ++ (W ++ [g] ++ word R) = (T ++ S ++ W ++ [g]) ++ word R := by simp
              rw [e2, e3]
              exact over_mono hover
            · rw [h3, hfl]
              simp [hsl]
        · have hroom : ¬ Over wrap (T ++ S ++ (W ++ [g])) := by
            rintro ⟨h1, h2⟩
            refine hov ⟨h1, ?_⟩
            rw [← List.append_assoc, width_append, ← hcells] at h2; omega
          have e0 : T ++ S ++ (W ++ [g]) ++ R = T ++ S ++ W ++ g :: R := by simp
          obtain ⟨fuel, st', ls, h1, h2, h3⟩ := ihR A T S (W ++ [g])
            { st with cells := st.cells + width [g], word := p + len [g] } (p + len [g])
            (by rw [hgs]; simp)
            (by rw [e0]; exact hn)
            (by
              have hip := hi.p
              refine ⟨hs, ?_, ?_, hroom, hi.fits, ?_, hi.next, hi.sp, ?_, hi.shape, by simp⟩
              · rw [len_append]; omega
              · simp only
                rw [hcells, ← List.append_assoc (T ++ S), width_append (T ++ S ++ W)]
              · rw [if_neg (by simp)]
                simp only
                rw [len_append]; omega
              · intro x hx
                rcases List.mem_append.1 hx with h | h
                · exact hi.w x h
                · simp at h; subst h; exact hsp)
          refine ⟨fuel + 1, st', ls, ?_, by rw [← e0]; exact h2, h3⟩
          rw [hstep fuel]
          simp only [hc32, if_false]
          rw [if_neg hov]
          simpa [hc32] using h1

theorem chars_glyphs {cs : List Nat} {gs : List G} (h : Glyphs env cs gs) : chars gs = cs := Ellipsify.glyphs_text h

/-- Text without codes is one piece. -/
theorem pieces_plain {t : List Nat} (hne : t ≠ []) (hp : ∀ c ∈ t, Printable c) (ht : ∀ c ∈ t, IsText c) (hl : (flat t).length ≤ bufferLimit) :
    ∃ x, piecesAt (flat t) = [(⟨flat t, some .chars, x⟩, [])] := by
  obtain ⟨s', hf', hn⟩ := Ecma48.next_text Ellipsify.fresh_init hne ht hp hl (Ellipsify.peek_stop (rest := []) (by simp) Ellipsify.stop_nil)
  refine ⟨({} : Ecma48.State).code, ?_⟩
  have hw : Ellipsify.walkAtFrom s' 0 (flat []) = some [] := by
    rw [Ellipsify.walkAtFrom]
    obtain ⟨st, b, cl, t, x⟩ := s'
    obtain ⟨rfl, rfl⟩ := hf'
    simp [Ecma48.nextCode, Ecma48.loop, flat, show peek [] = 0 from rfl]
  rw [piecesAt]
  rw [show flat t = flat t ++ flat [] by simp [flat], Ellipsify.walkAtFrom, hn]
  simp only
  rw [if_pos (by
    have := Ecma48.flat_ne hne
    have := List.length_pos_iff.2 this
    simp; omega), hw]
  simp [flat]

theorem plain {wrap : Nat} {cs : List Nat} {gs : List G} (hz : env.variant 0 = false) (hp : ∀ c ∈ cs, Printable c) (ht : ∀ c ∈ cs, IsText c)
    (hl : (flat cs).length ≤ bufferLimit) (hg : Glyphs env cs gs) (he : Even wrap gs) :
    ∃ lead body ls n, gs = lead ++ body ∧ (∀ g ∈ lead, Space g) ∧ (body = [] ∨ ∃ g, body.head? = some g ∧ ¬ Space g) ∧ Wraps wrap body ls ∧
      ∀ fuel ≥ n, wrapText env fuel (flat cs) wrap = some (if ls = [] then [[]] else ls.map bytes) := by
  have hne : ∀ g ∈ gs, g.1 ≠ [] := by
    intro g hgm
    obtain ⟨a, b, rfl⟩ := List.append_of_mem hgm
    rw [← chars_glyphs hg] at hg
    exact Ellipsify.glyph_ne (glyphs_head (glyphs_suffix a hg))
  obtain ⟨lead, body, rfl, h1, h2, h3⟩ := spaces_split he hne gs (fun _ h => h)
  have hcs := chars_glyphs hg
  subst hcs
  have hb : Glyphs env (chars body) body := glyphs_suffix lead hg
  have hin : ∀ c ∈ chars body, c ∈ chars (lead ++ body) := fun c hc => by simp [chars] at hc ⊢; exact .inr hc
  have he' : Even wrap body := ⟨fun g h => he.spaces g (by simp [h]), fun g h => he.narrow g (by simp [h])⟩
  have htext : (flat (chars (lead ++ body))).drop (spaces (flat (chars (lead ++ body)))) = bytes body := by
    have e : spaces (flat (chars (lead ++ body))) = len lead := h3
    have e2 : flat (chars (lead ++ body)) = bytes lead ++ bytes body := bytes_append lead body
    rw [e, e2, len]; simp
  have hwt : ∀ fuel, wrapText env fuel (flat (chars (lead ++ body))) wrap =
      (match outer env (bytes body) wrap fuel (piecesAt (bytes body)) ⟨0, 0, 0, 0, 0, []⟩ with
       | none => none
       | some st => some ((if final st = [] then [(0, 0)] else final st).map (slice (bytes body)))) := by
    intro fuel
    simp only [wrapText, wrapAt, htext]
    cases outer env (bytes body) wrap fuel (piecesAt (bytes body)) ⟨0, 0, 0, 0, 0, []⟩ with
    | none => rfl
    | some st => rfl
  by_cases hnil : body = []
  · subst hnil
    refine ⟨lead, [], [], 0, rfl, h1, .inl rfl, .none (by simp), fun fuel _ => ?_⟩
    rw [hwt]
    have : piecesAt (bytes []) = [] := by decide +kernel
    rw [this]
    simp [outer, final, slice, bytes, chars, flat]
  · have hne' : chars body ≠ [] := by
      cases body with
      | nil => exact absurd rfl hnil
      | cons g b =>
        have := hne g (by simp)
        simp [chars, this]
    have hl' : (flat (chars body)).length ≤ bufferLimit := by
      have : flat (chars (lead ++ body)) = bytes lead ++ bytes body := bytes_append lead body
      rw [this, List.length_append] at hl
      have : (flat (chars body)).length = (bytes body).length := rfl
      omega
    obtain ⟨x, hx⟩ := pieces_plain hne' (fun c hc => hp c (hin c hc)) (fun c hc => ht c (hin c hc)) hl'
    obtain ⟨n, st', ls, hr, hw, hf⟩ := run hz he' hb (fun c hc => ht c (hin c hc)) body.length body [] [] [] [] ⟨0, 0, 0, 0, 0, []⟩ 0
      (by simp) (by simp) (inv_new (st := ⟨0, 0, 0, 0, 0, []⟩) rfl rfl rfl rfl h2)
    refine ⟨lead, body, ls, n, rfl, h1, h2, by simpa using hw, fun fuel hfu => ?_⟩
    have hr' := inner_mono _ _ _ n _ _ _ (fuel - n) hr
    rw [show n + (fuel - n) = fuel by omega] at hr'
    rw [hwt]
    have hx' : piecesAt (bytes body) = [(⟨bytes body, some .chars, x⟩, [])] := hx
    have ho : outer env (bytes body) wrap fuel (piecesAt (bytes body)) ⟨0, 0, 0, 0, 0, []⟩ = some st' := by
      rw [hx']
      simp only [outer, isChars, beq_self_eq_true, if_true, List.length_nil, Nat.sub_zero, Nat.sub_self]
      rw [hr']
    rw [ho]
    simp only
    simp only [List.map_nil, List.nil_append] at hf
    by_cases hls : ls = []
    · subst hls
      simp only [List.map_nil, List.map_eq_nil_iff] at hf
      simp [hf, slice]
    · have : final st' ≠ [] := by
        intro h; rw [h] at hf; simp at hf; exact hls hf
      simp [this, hls, hf]

/-! ### What the lines have -/

theorem wraps_line {wrap : Nat} {gs : List G} {ls : List (List G)} (h : Wraps wrap gs ls) : ∀ l ∈ ls, Line wrap l := by
  induction h with
  | none _ => simp
  | last h _ => intro l hl; simp at hl; subst hl; exact h
  | words h _ _ _ _ _ ih => intro l hl; exact (List.mem_cons.1 hl).elim (fun e => e ▸ h) (ih l)
  | cut h _ _ _ _ ih => intro l hl; exact (List.mem_cons.1 hl).elim (fun e => e ▸ h) (ih l)

theorem filter_spaces {sp : List G} (h : ∀ g ∈ sp, Space g) : sp.filter (fun g => ¬ Space g) = [] := by
  rw [List.filter_eq_nil_iff]; intro g hg; simpa using h g hg

theorem wraps_keeps {wrap : Nat} {gs : List G} {ls : List (List G)} (h : Wraps wrap gs ls) :
    ls.flatten.filter (fun g => ¬ Space g) = gs.filter (fun g => ¬ Space g) := by
  induction h with
  | none h => rw [filter_spaces h]; rfl
  | last _ h => simp only [List.flatten_cons, List.flatten_nil, List.append_nil, List.filter_append, filter_spaces h]
  | words _ _ h _ _ _ ih => simp only [List.flatten_cons, List.filter_append, filter_spaces h, List.append_nil, ih]
  | cut _ _ _ _ _ ih => rw [List.flatten_cons, List.filter_append, List.filter_append, ih]

/-- A character that is wider than a line. -/
theorem stuck_inner {wrap : Nat} {g : G} {R : List G} (hz : env.variant 0 = false) (hg : Glyphs env (chars (g :: R)) (g :: R))
    (ht : ∀ c ∈ chars (g :: R), IsText c) (ho : Over wrap [g]) (hs : g.1.head? ≠ some 32) (fuel : Nat) :
    ∀ next lines, inner env (bytes (g :: R)) wrap (bytes (g :: R)).length fuel 0 ⟨0, 0, 0, next, 0, lines⟩ = none := by
  have hgl := glyphs_head hg
  obtain ⟨c, w, hgw⟩ : ∃ c w, g.1 = c :: w := by
    cases h : g.1 with
    | nil => exact absurd h (Ellipsify.glyph_ne hgl)
    | cons c w => exact ⟨c, w, rfl⟩
  have hc32 : c ≠ 32 := by rintro rfl; rw [hgw] at hs; exact hs rfl
  have htR : ∀ c ∈ g.1 ++ chars R, IsText c := fun c hc => ht c (by simpa [chars] using hc)
  have hct : IsText c := htR c (by rw [hgw]; simp)
  have hrun : oneRun env (bytes (g :: R)) = (g.2, bytes R) := by
    have := Ellipsify.oneRun_go hz hgl htR
    have e : bytes (g :: R) = flat (g.1 ++ chars R) := by simp [bytes, chars]
    rw [e, this]; rfl
  have hpeek : peek (bytes (g :: R)) = c := by
    have e : bytes (g :: R) = flat (c :: (w ++ chars R)) := by simp [bytes, chars, hgw]
    rw [e]; exact Ellipsify.peek_cons hct
  have hc0 : c ≠ 0 := by have := hct.1; omega
  have hsp : spaces (bytes (g :: R)) = 0 := by
    obtain ⟨b, t, h1, h2⟩ := byte_not_space hc32 (flat (w ++ chars R))
    have e : bytes (g :: R) = b :: t := by rw [← h1]; simp [bytes, chars, flat, hgw]
    rw [e]; simp [spaces, h2]
  induction fuel with
  | zero => intro next lines; rfl
  | succ fuel ih =>
    intro next lines
    unfold inner
    have hl : ((bytes (g :: R)).take (bytes (g :: R)).length).drop 0 = bytes (g :: R) := by simp
    have hov : wrap ≠ 0 ∧ (0 : Int) + clen false g.2 > wrap := ⟨ho.1, by have := ho.2; rw [width_one] at this; omega⟩
    simp only [hl, hpeek, hc0, if_false, hrun, hc32]
    rw [if_pos hov]
    have hfl : flush (bytes (g :: R)) ⟨0, 0, 0, next, 0, lines⟩ = ⟨0, 0, 0, 0, 0, lines ++ [(0, 0)]⟩ := by
      simp [flush, hsp]
    rw [hfl]
    exact ih 0 _

/-! ### There is one way to wrap a text -/

theorem wraps_head {wrap : Nat} {gs l : List G} {ls : List (List G)} (h : Wraps wrap gs (l :: ls)) :
    Line wrap l ∧ ∃ t, gs = l ++ t ∧ ((∀ g ∈ l, ¬ Space g) ∨ t = [] ∨ ∃ g, t.head? = some g ∧ Space g) := by
  cases h with
  | @last _ sp h1 h2 =>
    refine ⟨h1, sp, rfl, ?_⟩
    cases sp with
    | nil => exact .inr (.inl rfl)
    | cons g sp => exact .inr (.inr ⟨g, rfl, h2 g (by simp)⟩)
  | @words _ sp rest _ h1 h2 h3 h4 h5 h6 =>
    refine ⟨h1, sp ++ rest, by simp, ?_⟩
    cases sp with
    | nil => exact absurd rfl h2
    | cons g sp => exact .inr (.inr ⟨g, rfl, h3 g (by simp)⟩)
  | cut h1 h2 h3 h4 h5 => exact ⟨h1, _, rfl, .inl h2⟩

theorem word_end {y t : List G} (h : t = [] ∨ ∃ g, t.head? = some g ∧ Space g) : ∃ z, y = word (y ++ t) ++ z := by
  induction y with
  | nil =>
    refine ⟨[], ?_⟩
    rcases h with rfl | ⟨g, h1, h2⟩
    · rfl
    · cases t with
      | nil => simp at h1
      | cons a t => simp at h1; subst h1; simp [word, List.takeWhile_cons, h2]
  | cons a y ih =>
    obtain ⟨z, hz⟩ := ih
    by_cases ha : Space a
    · exact ⟨a :: y, by simp [word, List.takeWhile_cons, ha]⟩
    · refine ⟨z, ?_⟩
      have : word (a :: y ++ t) = a :: word (y ++ t) := by simp [word, List.takeWhile_cons, ha]
      rw [this, List.cons_append, ← hz]

/-- A line that is longer than the first line is too wide or ends with a space. -/
theorem wraps_longest {wrap : Nat} {gs l x t : List G} {ls : List (List G)} (h : Wraps wrap gs (l :: ls)) (hgs : gs = l ++ x ++ t) (hx : x ≠ [])
    (hl : Line wrap (l ++ x)) (ht : (∀ g ∈ l ++ x, ¬ Space g) ∨ t = [] ∨ ∃ g, t.head? = some g ∧ Space g) : False := by
  obtain ⟨e, he1, he2⟩ := hl.last
  rw [List.getLast?_append] at he1
  have hxe : x.getLast? = some e := by
    cases hh : x.getLast? with
    | none => exact absurd (List.getLast?_eq_none_iff.1 hh) hx
    | some e' => rw [hh] at he1; simpa using he1
  have hex : e ∈ x := List.mem_of_getLast? hxe
  cases h with
  | @last _ sp h1 h2 =>
    rw [List.append_assoc] at hgs
    have := List.append_cancel_left hgs
    exact he2 (h2 e (by rw [this]; simp [hex]))
  | @words _ sp rest _ h1 h2 h3 h4 h5 h6 =>
    have hgs' : sp ++ rest = x ++ t := by
      rw [List.append_assoc, List.append_assoc] at hgs
      exact List.append_cancel_left hgs
    rcases List.append_eq_append_iff.1 hgs' with ⟨y, h7, h8⟩ | ⟨y, h7, h8⟩
    · have ht' : t = [] ∨ ∃ g, t.head? = some g ∧ Space g := by
        rcases ht with h | h
        · cases sp with
          | nil => exact absurd rfl h2
          | cons a sp => exact absurd (h3 a (by simp)) (h a (by rw [h7]; simp))
        · exact h
      obtain ⟨z, hz⟩ := word_end (y := y) ht'
      apply hl.fits
      rw [h7, hz, ← h8, ← List.append_assoc, ← List.append_assoc]
      exact over_mono h4
    · exact he2 (h3 e (by rw [h7]; simp [hex]))
  | @cut _ g rest _ h1 h2 h3 h4 h5 =>
    have hgs' : g :: rest = x ++ t := by
      rw [List.append_assoc] at hgs
      exact List.append_cancel_left hgs
    cases x with
    | nil => exact absurd rfl hx
    | cons a x =>
      simp only [List.cons_append, List.cons.injEq] at hgs'
      obtain ⟨rfl, _⟩ := hgs'
      apply hl.fits
      have : l ++ g :: x = l ++ [g] ++ x := by simp
      rw [this]
      exact over_mono h4

theorem wraps_first {wrap : Nat} {gs l l' : List G} {ls ls' : List (List G)} (h : Wraps wrap gs (l :: ls)) (h' : Wraps wrap gs (l' :: ls')) :
    l = l' := by
  obtain ⟨h1, t, h2, h3⟩ := wraps_head h
  obtain ⟨h1', t', h2', h3'⟩ := wraps_head h'
  have he : l ++ t = l' ++ t' := by rw [← h2, h2']
  rcases List.append_eq_append_iff.1 he with ⟨x, h4, h5⟩ | ⟨x, h4, h5⟩
  · by_cases hx : x = []
    · rw [h4, hx]; simp
    · subst h4; exact (wraps_longest h h2' hx h1' h3').elim
  · by_cases hx : x = []
    · rw [h4, hx]; simp
    · subst h4; exact (wraps_longest h' h2 hx h1 h3).elim

theorem drop_spaces {sp rest : List G} (h : ∀ g ∈ sp, Space g) (h' : ∃ g, rest.head? = some g ∧ ¬ Space g) :
    (sp ++ rest).dropWhile (fun g => Space g) = rest := by
  rw [List.dropWhile_append_of_pos (by intro a ha; simpa using h a ha)]
  obtain ⟨g, h1, h2⟩ := h'
  cases rest with
  | nil => simp at h1
  | cons a r => simp at h1; subst h1; simp [List.dropWhile_cons, h2]

theorem wraps_unique {wrap : Nat} {gs : List G} {ls ls' : List (List G)} (h : Wraps wrap gs ls) (h' : Wraps wrap gs ls') : ls = ls' := by
  induction h generalizing ls' with
  | @none sp h1 =>
    cases ls' with
    | nil => rfl
    | cons l ls' =>
      obtain ⟨h2, t, h3, _⟩ := wraps_head h'
      obtain ⟨g, h4, h5⟩ := h2.last
      exact absurd (h1 g (by rw [h3]; simp [List.mem_of_getLast? h4])) h5
  | @last l sp h1 h2 =>
    cases ls' with
    | nil =>
      generalize hx : l ++ sp = gs at h'
      cases h' with
      | none h3 =>
        obtain ⟨g, h4, h5⟩ := h1.last
        exact absurd (h3 g (by rw [← hx]; simp [List.mem_of_getLast? h4])) h5
    | cons l' ls' =>
      have := wraps_first (.last h1 h2) h'
      subst this
      generalize hx : l ++ sp = gs at h'
      cases h' with
      | last h3 h4 => rfl
      | @words _ sp' rest _ h3 h4 h5 h6 h7 h8 =>
        rw [List.append_assoc] at hx
        have := List.append_cancel_left hx
        obtain ⟨g, h9, h10⟩ := h8
        exact absurd (h2 g (by rw [this]; simp [List.mem_of_head? h9])) h10
      | cut h3 h4 h5 h6 h7 =>
        have := List.append_cancel_left hx
        exact absurd (h2 _ (by rw [this]; simp)) h5
  | @words l sp rest ls h1 h2 h3 h4 h5 h6 ih =>
    cases ls' with
    | nil =>
      generalize hx : l ++ sp ++ rest = gs at h'
      cases h' with
      | none h9 =>
        obtain ⟨g, h7, h8⟩ := h1.last
        exact absurd (h9 g (by rw [← hx]; simp [List.mem_of_getLast? h7])) h8
    | cons l' ls' =>
      have := wraps_first (.words h1 h2 h3 h4 h5 h6) h'
      subst this
      generalize hx : l ++ sp ++ rest = gs at h'
      rw [List.append_assoc] at hx
      cases h' with
      | last h7 h8 =>
        have := List.append_cancel_left hx
        obtain ⟨g, h9, h10⟩ := h6
        exact absurd (h8 g (by rw [← this]; simp [List.mem_of_head? h9])) h10
      | @words _ sp' rest' _ h7 h8 h9 h10 h11 h12 =>
        rw [List.append_assoc] at hx
        have := List.append_cancel_left hx
        have := congrArg (List.dropWhile (fun g => decide (Space g))) this
        rw [drop_spaces h3 h6, drop_spaces h9 h12] at this
        subst this
        rw [ih h11]
      | cut h7 h8 h9 h10 h11 =>
        have := List.append_cancel_left hx
        cases sp with
        | nil => exact absurd rfl h2
        | cons a sp =>
          simp only [List.cons_append, List.cons.injEq] at this
          exact absurd (this.1 ▸ h3 a (by simp)) h9
  | @cut l g rest ls h1 h2 h3 h4 h5 ih =>
    cases ls' with
    | nil =>
      generalize hx : l ++ g :: rest = gs at h'
      cases h' with
      | none h9 => exact absurd (h9 g (by rw [← hx]; simp)) h3
    | cons l' ls' =>
      have := wraps_first (.cut h1 h2 h3 h4 h5) h'
      subst this
      generalize hx : l ++ g :: rest = gs at h'
      cases h' with
      | last h7 h8 =>
        have := List.append_cancel_left hx
        exact absurd (h8 g (by rw [← this]; simp)) h3
      | @words _ sp' rest' _ h7 h8 h9 h10 h11 h12 =>
        rw [List.append_assoc] at hx
        have := List.append_cancel_left hx
        cases sp' with
        | nil => exact absurd rfl h8
        | cons a sp =>
          simp only [List.cons_append, List.cons.injEq] at this
          exact absurd (this.1.symm ▸ h9 a (by simp)) h3
      | cut h7 h8 h9 h10 h11 =>
        have := List.append_cancel_left hx
        rw [← this] at h11
        rw [ih h11]

end Clink.Wrap
