import Verif.Proof.AttributesPrinter

/-! What the console shows. -/

namespace Clink.Attributes
open Spec

theorem dos_lt : ∀ n < 16, dos n < 16 := by decide

theorem swizzle_dos : ∀ n < 16, swizzle n = dos n := by decide

/-- What `sgr` can give. -/
def Sane (c : BitVec 16) (has : Bool) : Prop := (has = false → c = 0) ∧ (c = 231 ∨ c.toNat < 16 ∨ 32768 ≤ c.toNat)

def WF (a : Attr) : Prop := Sane a.fg a.hasFg ∧ Sane a.bg a.hasBg

theorem sane_byte {n : Nat} (h : n < 16) : Sane (if (byte n).setWidth 16 = defaultCode then 15 else (byte n).setWidth 16) true := by
  have key : ∀ n < 16, (if (byte n).setWidth 16 = defaultCode then 15 else (byte n).setWidth 16).toNat < 16 := by decide
  exact ⟨by simp, .inr (.inl (key n h))⟩

theorem sane_rgb (r g b : BitVec 8) : Sane (rgbValue r g b) true := by
  refine ⟨by simp, .inr (.inr ?_)⟩
  have hr := r.isLt
  have hg := g.isLt
  have hb := b.isLt
  unfold rgbValue
  rw [BitVec.toNat_ofNat, BitVec.toNat_ushiftRight, BitVec.toNat_ushiftRight, BitVec.toNat_ushiftRight, Nat.shiftRight_eq_div_pow, Nat.shiftRight_eq_div_pow, Nat.shiftRight_eq_div_pow]
  omega

theorem and15_lt (n : Nat) : n &&& 15 < 16 := by
  have := Nat.and_le_right (n := n) (m := 15)
  omega

theorem indexed_wf (fg : Bool) (x : Nat) (a : Attr) (h : WF a) : WF (indexed fg x a) := by
  unfold indexed
  dsimp only
  split
  · rename_i hi
    cases fg
    · exact ⟨h.1, sane_byte hi⟩
    · exact ⟨sane_byte hi, h.2⟩
  · split <;> cases fg
    · exact ⟨h.1, sane_rgb _ _ _⟩
    · exact ⟨sane_rgb _ _ _, h.2⟩
    · exact ⟨h.1, sane_rgb _ _ _⟩
    · exact ⟨sane_rgb _ _ _, h.2⟩

theorem sane_default : Sane defaultCode true := ⟨by simp, .inl rfl⟩

theorem sgrGo_wf (ps : List Nat) (a : Attr) : WF a → WF (sgrGo ps a) := by
  fun_induction sgrGo ps a with
  | case1 => exact id
  | case2 =>
    rename_i ih
    intro _
    exact ih ⟨sane_default, sane_default⟩
  | case3 =>
    rename_i ih
    intro h
    exact ih ⟨h.1, sane_default⟩
  | case4 =>
    rename_i ih
    intro h
    exact ih ⟨sane_default, h.2⟩
  | case5 =>
    rename_i ih
    intro h
    exact ih h
  | case6 =>
    rename_i ih
    intro h
    exact ih h
  | case7 =>
    rename_i ih
    intro h
    exact ih ⟨sane_byte (and15_lt _), h.2⟩
  | case8 =>
    rename_i ih
    intro h
    exact ih ⟨h.1, sane_byte (and15_lt _)⟩
  | case9 =>
    rename_i ih
    intro h
    exact ih h
  | case11 =>
    rename_i ih
    intro h
    apply ih
    split
    · exact ⟨sane_rgb _ _ _, h.2⟩
    · exact ⟨h.1, sane_rgb _ _ _⟩
  | case13 =>
    rename_i ih
    intro h
    exact ih (indexed_wf _ _ _ h)
  | case10 => exact id
  | case12 => exact id
  | case14 => exact id
  | case15 =>
    rename_i ih
    exact ih
  | case16 =>
    rename_i ih
    exact ih

theorem sgr_wf (ps : List Nat) : WF (sgr ps) := by
  unfold sgr
  split
  · exact ⟨sane_default, sane_default⟩
  · exact sgrGo_wf ps {} ⟨⟨fun _ => rfl, .inr (.inl (by decide))⟩, ⟨fun _ => rfl, .inr (.inl (by decide))⟩⟩

/-! Bits. -/

theorem and_shift (w m k : Nat) : w &&& (m <<< k) = ((w >>> k) &&& m) <<< k := by
  apply Nat.eq_of_testBit_eq
  intro i
  simp only [Nat.testBit_and, Nat.testBit_shiftLeft, Nat.testBit_shiftRight]
  by_cases h : i ≥ k
  · simp [h, show k + (i - k) = i by omega]
  · simp [h]

theorem mask_low (w : Nat) : w &&& 0x0f = w % 16 := Nat.and_two_pow_sub_one_eq_mod w 4

theorem mask_high (w : Nat) : w &&& 0xf0 = w / 16 % 16 * 16 := by
  have := and_shift w 15 4
  rw [show (15 <<< 4 : Nat) = 0xf0 from rfl, Nat.shiftLeft_eq, mask_low, Nat.shiftRight_eq_div_pow] at this
  exact this

theorem mask_other (w : Nat) : w &&& 0x7f00 = w / 256 % 128 * 256 := by
  have := and_shift w 127 8
  rw [show (127 <<< 8 : Nat) = 0x7f00 from rfl, Nat.shiftLeft_eq, Nat.and_two_pow_sub_one_eq_mod _ 7, Nat.shiftRight_eq_div_pow] at this
  exact this

theorem mask_top (w : Nat) : w &&& 0x8000 = w / 32768 % 2 * 32768 := by
  have := and_shift w 1 15
  rw [show (1 <<< 15 : Nat) = 0x8000 from rfl, Nat.shiftLeft_eq, Nat.and_two_pow_sub_one_eq_mod _ 1, Nat.shiftRight_eq_div_pow] at this
  exact this

theorem mask_out (w : Nat) : w &&& 0x80ff = w / 32768 % 2 * 32768 + (w / 16 % 16 * 16 + w % 16) := by
  rw [show (0x80ff : Nat) = 0x8000 ||| 0xff from rfl, Nat.and_or_distrib_left, mask_top, Nat.and_two_pow_sub_one_eq_mod w 8]
  have := Nat.shiftLeft_add_eq_or_of_lt (a := w / 32768 % 2) (b := w % 2 ^ 8) (i := 15) (by omega)
  have p15 : (2 : Nat) ^ 15 = 32768 := by decide
  rw [Nat.shiftLeft_eq, p15] at this
  rw [← this]
  omega

theorem or_other (A L Y : Nat) (hL : L < 256) : (A * 256 + L ||| Y * 256) = (A ||| Y) * 256 + L := by
  have h1 := Nat.shiftLeft_add_eq_or_of_lt (a := A) (b := L) (i := 8) (by omega)
  have h2 := Nat.shiftLeft_add_eq_or_of_lt (a := A ||| Y) (b := L) (i := 8) (by omega)
  rw [Nat.shiftLeft_eq] at h1
  have e : A * 256 + L = A * 2 ^ 8 + L := rfl
  rw [e, h1, show Y * 256 = Y <<< 8 by rw [Nat.shiftLeft_eq], Nat.or_assoc, Nat.or_comm L, ← Nat.or_assoc, show A * 2 ^ 8 = A <<< 8 by rw [Nat.shiftLeft_eq], ← Nat.shiftLeft_or_distrib, ← h2, Nat.shiftLeft_eq]

theorem final_plain (U B F w : Nat) (hU : U < 2) (hB : B < 16) (hF : F < 16) :
    ((U * 32768 + (B * 16 + F)) ||| (w &&& 0x7f00)) &&& 0xffff = U * 32768 + w / 256 % 128 * 256 + (B * 16 + F) := by
  rw [mask_other, Nat.and_two_pow_sub_one_eq_mod _ 16]
  have h := or_other (U * 128) (B * 16 + F) (w / 256 % 128) (by omega)
  have h2 := Nat.shiftLeft_add_eq_or_of_lt (a := U) (b := w / 256 % 128) (i := 7) (by omega)
  rw [Nat.shiftLeft_eq] at h2
  have e : U * 32768 + (B * 16 + F) = U * 128 * 256 + (B * 16 + F) := by omega
  rw [e, h, ← h2]
  omega

theorem swap_value : ∀ U < 2, ∀ B < 16, ∀ F < 16, swap (U * 32768 + (B * 16 + F)) = U * 524288 + (F * 16 + B) := by decide +kernel

theorem final_swap (U B F w : Nat) (hU : U < 2) (hB : B < 16) (hF : F < 16) :
    (swap (U * 32768 + (B * 16 + F)) ||| (w &&& 0x7f00)) &&& 0xffff = w / 256 % 128 * 256 + (F * 16 + B) := by
  rw [swap_value U hU B hB F hF, mask_other, Nat.and_two_pow_sub_one_eq_mod _ 16]
  have h := or_other (U * 2048) (F * 16 + B) (w / 256 % 128) (by omega)
  have h2 := Nat.shiftLeft_add_eq_or_of_lt (a := U) (b := w / 256 % 128) (i := 11) (by omega)
  rw [Nat.shiftLeft_eq] at h2
  have e : U * 524288 + (F * 16 + B) = U * 2048 * 256 + (F * 16 + B) := by rw [Nat.mul_assoc]
  rw [e, h, ← h2]
  omega

theorem put_under : ∀ U < 2, ∀ B < 16, ∀ F < 16, (U * 32768 + (B * 16 + F)) ||| 0x8000 = 1 * 32768 + (B * 16 + F) ∧ (U * 32768 + (B * 16 + F)) &&& 0xffff7fff = 0 * 32768 + (B * 16 + F) := by
  decide +kernel

theorem put_bold : ∀ U < 2, ∀ B < 16, ∀ F < 16, (U * 32768 + (B * 16 + F)) ||| 8 = U * 32768 + (B * 16 + (F % 8 + 8)) ∧ (U * 32768 + (B * 16 + F)) &&& 0xfffffff7 = U * 32768 + (B * 16 + F % 8) ∧
    ((U * 32768 + (B * 16 + F)) &&& 8 != 0) = decide (8 ≤ F) := by
  decide +kernel

theorem put_fg : ∀ U < 2, ∀ B < 16, ∀ F < 16, ∀ v < 16, ((U * 32768 + (B * 16 + F)) &&& 0xfffffff0) ||| v = U * 32768 + (B * 16 + v) := by decide +kernel

theorem put_bg : ∀ U < 2, ∀ B < 16, ∀ F < 16, ∀ v < 16, ((U * 32768 + (B * 16 + F)) &&& 0xffffff0f) ||| (v * 16) = U * 32768 + (v * 16 + F) := by decide +kernel

/-! Colours. -/

theorem number_fun {best : Nat × Nat × Nat → Option (BitVec 8)} {d : Nat} {c : Colour} {n n' : Nat} (h : Number best d c n) (h' : Number best d c n') : n = n' := by
  cases h with
  | default => cases h'; rfl
  | index _ => cases h'; rfl
  | rgb h1 _ =>
    cases h' with
    | rgb h2 _ =>
      rw [h1] at h2
      cases h2
      rfl

theorem number_lt {best : Nat × Nat × Nat → Option (BitVec 8)} {d : Nat} (hd : d < 16) {c : Colour} {n : Nat} (h : Number best d c n) : n < 16 := by
  cases h with
  | default => exact hd
  | index h => exact dos_lt _ h
  | rgb _ h => exact dos_lt _ h

theorem number_any {best : Nat × Nat × Nat → Option (BitVec 8)} {c : Colour} (d : Nat) (h : ∃ n, Number best 0 c n) : ∃ n, Number best d c n := by
  obtain ⟨n, h⟩ := h
  cases h with
  | default => exact ⟨_, .default⟩
  | index h => exact ⟨_, .index h⟩
  | rgb h h' => exact ⟨_, .rgb h h'⟩

theorem as888_colour (c : BitVec 16) : as888 c = (c.toNat % 32 * 8 + c.toNat % 32 % 8, c.toNat / 32 % 32 * 8 + c.toNat / 32 % 32 % 8, c.toNat / 1024 % 32 * 8 + c.toNat / 1024 % 32 % 8) := by
  have key : ∀ x < 32, (x <<< 3 ||| (x &&& 7)) % 256 = x * 8 + x % 8 := by decide
  unfold as888
  dsimp only
  rw [key _ (Nat.mod_lt _ (by omega)), key _ (Nat.mod_lt _ (by omega)), key _ (Nat.mod_lt _ (by omega))]

/-- The colour that is used after the search in the palette. -/
def found (best : Nat × Nat × Nat → Option (BitVec 8)) (c : BitVec 16) : BitVec 16 :=
  if isRgb c then match best (as888 c) with | none => c | some n => if n.setWidth 16 = defaultCode then 15 else n.setWidth 16 else c

theorem found_value (best : Nat × Nat × Nat → Option (BitVec 8)) (dflt : Nat) (c : BitVec 16) (hc : c = 231 ∨ c.toNat < 16 ∨ 32768 ≤ c.toNat) (g : Nat) :
    (Number best (dflt % 16) (colour c) g → (if found best c = defaultCode then dflt else swizzle (found best c).toNat) &&& 0x0f = g) ∧
    (Number best (dflt / 16 % 16) (colour c) g → (if found best c = defaultCode then dflt else swizzle (found best c).toNat <<< 4) &&& 0xf0 = g * 16) ∧
    (∀ d, Number best d (colour c) g → isRgb c = true → ∃ n, best (as888 c) = some n) := by
  have hsm : ∀ n : BitVec 8, n.toNat < 16 → (n.setWidth 16 = defaultCode ↔ False) ∧ (n.setWidth 16).toNat = n.toNat := by
    intro n hn
    have e : (n.setWidth 16).toNat = n.toNat := by
      rw [BitVec.toNat_setWidth]
      exact Nat.mod_eq_of_lt (by omega)
    refine ⟨⟨fun h => ?_, False.elim⟩, e⟩
    rw [h] at e
    have : defaultCode.toNat = 231 := rfl
    omega
  have hdos : ∀ n < 16, dos n &&& 0x0f = dos n ∧ (dos n <<< 4) &&& 0xf0 = dos n * 16 := by decide
  rcases hc with rfl | hc | hc
  · have e1 : found best 231 = defaultCode := rfl
    have e2 : colour 231 = .default := rfl
    rw [e1, e2, if_pos rfl, if_pos rfl, mask_low, mask_high]
    refine ⟨fun h => ?_, fun h => ?_, fun d _ h => ?_⟩
    · cases h; rfl
    · cases h; rfl
    · exact absurd h (by decide)
  · have h0 : isRgb c = false := by simp [isRgb]; omega
    have hne : c ≠ 231 := by
      rintro rfl
      exact absurd hc (by decide)
    have e1 : found best c = c := by simp [found, h0]
    have e2 : colour c = .index c.toNat := by
      rw [colour, if_neg hne, if_pos (by omega)]
    have hne' : ¬ c = defaultCode := hne
    rw [e1, e2, if_neg hne', if_neg hne', swizzle_dos _ hc]
    refine ⟨fun h => ?_, fun h => ?_, fun d _ h => ?_⟩
    · cases h
      exact (hdos _ hc).1
    · cases h
      exact (hdos _ hc).2
    · rw [h0] at h
      exact absurd h (by decide)
  · have h0 : isRgb c = true := by simp [isRgb, hc]
    have hne : c ≠ 231 := by
      rintro rfl
      exact absurd hc (by decide)
    have e2 : colour c = .rgb (c.toNat % 32) (c.toNat / 32 % 32) (c.toNat / 1024 % 32) := by
      rw [colour, if_neg hne, if_neg (by omega)]
    rw [e2]
    refine ⟨fun h => ?_, fun h => ?_, fun d h _ => ?_⟩
    · cases h with
      | @rgb _ _ _ n h1 h2 =>
        rw [← as888_colour] at h1
        have e : found best c = n.setWidth 16 := by
          simp only [found, h0, if_true, h1]
          rw [if_neg (hsm n h2).1.1]
        rw [e, if_neg (hsm n h2).1.1, (hsm n h2).2, swizzle_dos _ h2]
        exact (hdos _ h2).1
    · cases h with
      | @rgb _ _ _ n h1 h2 =>
        rw [← as888_colour] at h1
        have e : found best c = n.setWidth 16 := by
          simp only [found, h0, if_true, h1]
          rw [if_neg (hsm n h2).1.1]
        rw [e, if_neg (hsm n h2).1.1, (hsm n h2).2, swizzle_dos _ h2]
        exact (hdos _ h2).2
    · cases h with
      | @rgb _ _ _ n h1 h2 =>
        rw [← as888_colour] at h1
        exact ⟨n, h1⟩

theorem findPalette_some (best : Nat × Nat × Nat → Option (BitVec 8)) (a : Attr) (hw : WF a) (h1 : isRgb a.fg = true → ∃ n, best (as888 a.fg) = some n) (h2 : isRgb a.bg = true → ∃ n, best (as888 a.bg) = some n) :
    findPalette best a = some { a with fg := found best a.fg, bg := found best a.bg } := by
  have k1 : isRgb a.fg = true → a.hasFg = true := by
    intro h
    cases e : a.hasFg with
    | true => rfl
    | false =>
      rw [hw.1.1 e] at h
      exact absurd h (by decide)
  have k2 : isRgb a.bg = true → a.hasBg = true := by
    intro h
    cases e : a.hasBg with
    | true => rfl
    | false =>
      rw [hw.2.1 e] at h
      exact absurd h (by decide)
  unfold findPalette
  dsimp only
  by_cases i1 : isRgb a.fg = true <;> by_cases i2 : isRgb a.bg = true
  · obtain ⟨n, e1⟩ := h1 i1
    obtain ⟨m, e2⟩ := h2 i2
    simp [i1, i2, e1, e2, Attr.setFg, Attr.setBg, found, k1 i1, k2 i2]
  · obtain ⟨n, e1⟩ := h1 i1
    simp [i1, i2, e1, Attr.setFg, found, k1 i1]
  · obtain ⟨m, e2⟩ := h2 i2
    simp [i1, i2, e2, Attr.setBg, found, k2 i2]
  · simp [i1, i2, found]

/-- The foreground that is shown. -/
def ink (hasFg hasBold bold : Bool) (f g : Nat) : Nat :=
  let v := if hasFg then g else f
  if hasBold then (if bold || decide (8 ≤ v) then v % 8 + 8 else v % 8) else v

def lit (bold : Bool) (f : Nat) : Nat := if bold = true ∧ f < 8 then f + 8 else f

theorem ink_lt {hasFg hasBold bold : Bool} {f g : Nat} (hf : f < 16) (hg : g < 16) : ink hasFg hasBold bold f g < 16 := by
  unfold ink
  dsimp only
  (repeat' split) <;> omega

theorem lit_lt {bold : Bool} {f : Nat} (hf : f < 16) : lit bold f < 16 := by
  unfold lit
  split <;> omega

theorem set_word (best : Nat × Nat × Nat → Option (BitVec 8)) (dflt : Nat) (s : Console) (l : Look) (a : Attr) (hw : WF a) (hon : On best dflt s l) (hur : ¬ (l.reverse = true ∧ l.underline = true))
    (f g b : Nat) (hf : Number best (dflt % 16) l.fg f) (hg : Number best (dflt % 16) (over l a).fg g) (hb : Number best (dflt / 16 % 16) (over l a).bg b) :
    s.setAttributes best dflt a =
      { word := if (over l a).reverse then s.word / 256 % 128 * 256 + (ink a.hasFg a.hasBold (over l a).bold (lit l.bold f) g * 16 + b)
          else (if (over l a).underline then 1 else 0) * 32768 + s.word / 256 % 128 * 256 + (b * 16 + ink a.hasFg a.hasBold (over l a).bold (lit l.bold f) g)
        bold := (over l a).bold, reverse := (over l a).reverse } := by
  obtain ⟨⟨f0, b0, h1, h2, h3, h4, h5, h6⟩, h7, h8⟩ := hon
  obtain rfl := number_fun hf h1
  have hb0 : b0 < 16 := number_lt (Nat.mod_lt _ (by omega)) h2
  have hf16 : f < 16 := number_lt (Nat.mod_lt _ (by omega)) hf
  have hg16 : g < 16 := number_lt (Nat.mod_lt _ (by omega)) hg
  have hb16 : b < 16 := number_lt (Nat.mod_lt _ (by omega)) hb
  have hl16 : lit l.bold f < 16 := lit_lt hf16
  -- the palette
  have hpal : findPalette best a = some { a with fg := found best a.fg, bg := found best a.bg } := by
    apply findPalette_some best a hw
    · intro h
      cases e : a.hasFg with
      | true =>
        simp only [over, e, if_true] at hg
        exact (found_value best dflt a.fg hw.1.2 g).2.2 _ hg h
      | false =>
        rw [hw.1.1 e] at h
        exact absurd h (by decide)
    · intro h
      cases e : a.hasBg with
      | true =>
        simp only [over, e, if_true] at hb
        exact (found_value best dflt a.bg hw.2.2 b).2.2 _ hb h
      | false =>
        rw [hw.2.1 e] at h
        exact absurd h (by decide)
  -- the word without reverse
  have hout : (if s.reverse then swap (s.word &&& 0x80ff) else s.word &&& 0x80ff) = (if l.underline then 1 else 0) * 32768 + (b0 * 16 + lit l.bold f) := by
    rw [mask_out, h8]
    cases hr : l.reverse with
    | false =>
      rw [hr] at h4 h5
      simp only [Bool.false_eq_true, if_false] at h4 h5 ⊢
      rw [h4, h5, show s.word / 32768 % 2 = s.word / 32768 by omega, h6]
      rfl
    | true =>
      rw [hr] at h4 h5
      simp only [if_true] at h4 h5 ⊢
      have hu : l.underline = false := by
        cases e : l.underline with
        | false => rfl
        | true => exact absurd ⟨hr, e⟩ hur
      rw [hu] at h6 ⊢
      simp only [Bool.false_eq_true, if_false] at h6 ⊢
      have h5' : s.word / 16 % 16 = lit l.bold f := h5
      rw [h4, h5', show s.word / 32768 % 2 = 0 by omega, swap_value 0 (by omega) _ hl16 _ hb0]
  have hou : (over l a).underline = if a.hasUnderline then a.underline else l.underline := rfl
  have hobo : (over l a).bold = if a.hasBold then a.bold else l.bold := rfl
  have hore : (over l a).reverse = if a.hasReverse then a.reverse else l.reverse := rfl
  unfold Console.setAttributes
  rw [hpal]
  dsimp only
  rw [hout, h7, h8, ← hobo, ← hore]
  generalize hM : (over l a).bold = M
  generalize hR : (over l a).reverse = R
  -- underline
  have hU : (if a.hasUnderline = true then
        if a.underline = true then (if l.underline = true then 1 else 0) * 32768 + (b0 * 16 + lit l.bold f) ||| 0x8000
        else (if l.underline = true then 1 else 0) * 32768 + (b0 * 16 + lit l.bold f) &&& 0xffff7fff
      else (if l.underline = true then 1 else 0) * 32768 + (b0 * 16 + lit l.bold f)) = (if (over l a).underline then 1 else 0) * 32768 + (b0 * 16 + lit l.bold f) := by
    have hk := put_under (if l.underline = true then 1 else 0) (by split <;> omega) b0 hb0 (lit l.bold f) hl16
    rw [hou, hk.1, hk.2]
    cases a.hasUnderline <;> cases a.underline <;> rfl
  rw [hU]
  generalize hu : (if (over l a).underline = true then 1 else 0) = u
  have hu2 : u < 2 := by
    rw [← hu]
    split <;> omega
  generalize hF : lit l.bold f = F at hl16 ⊢
  -- the foreground
  have hfg : (if a.hasFg = true then
        (u * 32768 + (b0 * 16 + F) &&& 0xfffffff0 ||| (if found best a.fg = defaultCode then dflt else swizzle (found best a.fg).toNat) &&& 0x0f,
          M || decide (7 < (if found best a.fg = defaultCode then dflt else swizzle (found best a.fg).toNat) &&& 0x0f))
      else (u * 32768 + (b0 * 16 + F), M || u * 32768 + (b0 * 16 + F) &&& 8 != 0)) =
      (u * 32768 + (b0 * 16 + if a.hasFg then g else F), M || decide (8 ≤ if a.hasFg then g else F)) := by
    cases e : a.hasFg with
    | false =>
      simp only [Bool.false_eq_true, if_false]
      rw [(put_bold u hu2 b0 hb0 F hl16).2.2]
    | true =>
      simp only [if_true]
      simp only [over, e, if_true] at hg
      rw [(found_value best dflt a.fg hw.1.2 g).1 hg, put_fg u hu2 b0 hb0 F hl16 g hg16]
      rfl
  rw [hfg]
  dsimp only
  unfold ink
  dsimp only
  generalize hv : (if a.hasFg = true then g else F) = v
  have hv16 : v < 16 := by
    rw [← hv]
    split <;> omega
  -- bold
  have hbo : (if a.hasBold = true then
        if (M || decide (8 ≤ v)) = true then u * 32768 + (b0 * 16 + v) ||| 8 else u * 32768 + (b0 * 16 + v) &&& 0xfffffff7
      else u * 32768 + (b0 * 16 + v)) = u * 32768 + (b0 * 16 + if a.hasBold = true then (if (M || decide (8 ≤ v)) = true then v % 8 + 8 else v % 8) else v) := by
    have hk := put_bold u hu2 b0 hb0 v hv16
    rw [hk.1, hk.2.1]
    split
    · split <;> rfl
    · rfl
  rw [hbo]
  generalize hx : (if a.hasBold = true then (if (M || decide (8 ≤ v)) = true then v % 8 + 8 else v % 8) else v) = x
  have hx16 : x < 16 := by
    rw [← hx]
    split
    · split <;> omega
    · omega
  -- the background
  have hbg : (if a.hasBg = true then
        u * 32768 + (b0 * 16 + x) &&& 0xffffff0f ||| (if found best a.bg = defaultCode then dflt else swizzle (found best a.bg).toNat <<< 4) &&& 0xf0
      else u * 32768 + (b0 * 16 + x)) = u * 32768 + (b * 16 + x) := by
    cases e : a.hasBg with
    | false =>
      simp only [over, e, Bool.false_eq_true, if_false] at hb ⊢
      rw [number_fun hb h2]
    | true =>
      simp only [if_true]
      simp only [over, e, if_true] at hb
      rw [(found_value best dflt a.bg hw.2.2 b).2.1 hb, put_bg u hu2 b0 hb0 x hx16 b hb16]
  rw [hbg]
  cases R with
  | false =>
    simp only [Bool.false_eq_true, if_false]
    rw [final_plain u b x s.word hu2 hb16 hx16]
  | true =>
    simp only [if_true]
    rw [final_swap u b x s.word hu2 hb16 hx16]

/-- The foreground is right. -/
theorem ink_right (a : Attr) (l : Look) (f g : Nat) (hf : f < 16) (hg : g < 16) (hfg : a.hasFg = false → g = f) :
    ink a.hasFg a.hasBold (over l a).bold (lit l.bold f) g = lit (over l a).bold g ↔
      (a.hasFg = true → a.hasBold = false → l.bold = true → 8 ≤ g) ∧ (a.hasFg = false → a.hasBold = true → l.bold = true → a.bold = false → 8 ≤ f) := by
  unfold ink lit over
  cases h1 : a.hasFg <;> cases h2 : a.hasBold <;> cases h3 : l.bold <;> cases h4 : a.bold <;> simp <;>
    (try have := hfg h1; subst this) <;> (repeat' split) <;> omega

theorem set_iff (best : Nat × Nat × Nat → Option (BitVec 8)) (dflt : Nat) (s : Console) (l : Look) (a : Attr) (hw : WF a) (hon : On best dflt s l) (hur : ¬ (l.reverse = true ∧ l.underline = true))
    (f g b : Nat) (hf : Number best (dflt % 16) l.fg f) (hg : Number best (dflt % 16) (over l a).fg g) (hb : Number best (dflt / 16 % 16) (over l a).bg b) :
    (On best dflt (s.setAttributes best dflt a) (over l a) ↔
      ¬ ((over l a).reverse = true ∧ (over l a).underline = true) ∧
      (a.hasFg = true → a.hasBold = false → l.bold = true → 8 ≤ g) ∧ (a.hasFg = false → a.hasBold = true → l.bold = true → a.bold = false → 8 ≤ f)) ∧
    (s.setAttributes best dflt a).word / 256 % 128 = s.word / 256 % 128 ∧ (s.setAttributes best dflt a).word < 65536 := by
  have hf16 : f < 16 := number_lt (Nat.mod_lt _ (by omega)) hf
  have hg16 : g < 16 := number_lt (Nat.mod_lt _ (by omega)) hg
  have hb16 : b < 16 := number_lt (Nat.mod_lt _ (by omega)) hb
  have hfg : a.hasFg = false → g = f := by
    intro h
    simp only [over, h, Bool.false_eq_true, if_false] at hg
    exact number_fun hg hf
  rw [set_word best dflt s l a hw hon hur f g b hf hg hb, ← ink_right a l f g hf16 hg16 hfg]
  have hx16 : ink a.hasFg a.hasBold (over l a).bold (lit l.bold f) g < 16 := ink_lt (lit_lt hf16) hg16
  generalize ink a.hasFg a.hasBold (over l a).bold (lit l.bold f) g = x at hx16 ⊢
  dsimp only
  cases hr : (over l a).reverse <;> cases hu : (over l a).underline <;> simp only [Bool.false_eq_true, if_false, if_true]
  all_goals refine ⟨?_, by omega, by omega⟩
  all_goals unfold On Word
  all_goals rw [hr, hu]
  all_goals simp only [Bool.false_eq_true, if_false, if_true, and_true, true_and, false_and, and_false, not_false_eq_true, not_true_eq_false, iff_false]
  · constructor
    · rintro ⟨f', b', k1, k2, k3, k4, k5, k6⟩
      rw [number_fun hg k1, lit, ← k4]
      omega
    · intro h
      exact ⟨g, b, hg, hb, by omega, by show _ = lit _ g; omega, by omega, by omega⟩
  · constructor
    · rintro ⟨f', b', k1, k2, k3, k4, k5, k6⟩
      rw [number_fun hg k1, lit, ← k4]
      omega
    · intro h
      exact ⟨g, b, hg, hb, by omega, by show _ = lit _ g; omega, by omega, by omega⟩
  · constructor
    · rintro ⟨f', b', k1, k2, k3, k4, k5, k6⟩
      rw [number_fun hg k1, lit, ← k5]
      omega
    · intro h
      exact ⟨g, b, hg, hb, by omega, by omega, by show _ = lit _ g; omega, by omega⟩
  · rintro ⟨f', b', k1, k2, k3, k4, k5, k6⟩
    omega

theorem sgr_reset (ps : List Nat) (h : ps = [] ∨ ps.head? = some 0) : Full (sgr ps) := by
  have key : ∀ (ps : List Nat) (a : Attr), Full a → Full (sgrGo ps a) := by
    intro ps a
    fun_induction sgrGo ps a with
    | case1 => exact id
    | case2 =>
      rename_i ih
      intro _
      exact ih defaults_full
    | case3 =>
      rename_i ih
      intro h
      exact ih ⟨h.1, rfl, h.2.2⟩
    | case4 =>
      rename_i ih
      intro h
      exact ih ⟨rfl, h.2⟩
    | case5 =>
      rename_i ih
      intro h
      exact ih ⟨h.1, h.2.1, rfl, h.2.2.2⟩
    | case6 =>
      rename_i ih
      intro h
      exact ih ⟨h.1, h.2.1, h.2.2.1, rfl, h.2.2.2.2⟩
    | case7 =>
      rename_i ih
      intro h
      exact ih ⟨rfl, h.2⟩
    | case8 =>
      rename_i ih
      intro h
      exact ih ⟨h.1, rfl, h.2.2⟩
    | case9 =>
      rename_i ih
      intro h
      exact ih ⟨h.1, h.2.1, h.2.2.1, h.2.2.2.1, rfl⟩
    | case11 =>
      rename_i ih
      intro h
      apply ih
      split
      · exact ⟨rfl, h.2⟩
      · exact ⟨h.1, rfl, h.2.2⟩
    | case13 =>
      rename_i ih
      intro h
      apply ih
      unfold indexed
      dsimp only
      (repeat' split) <;> first | exact ⟨rfl, h.2⟩ | exact ⟨h.1, rfl, h.2.2⟩
    | case10 => exact id
    | case12 => exact id
    | case14 => exact id
    | case15 =>
      rename_i ih
      exact ih
    | case16 =>
      rename_i ih
      exact ih
  match ps, h with
  | [], _ => exact defaults_full
  | p :: r, h =>
    have hp : p = 0 := by simpa using h
    unfold sgr
    rw [if_neg (by simp), hp, sgrGo.eq_def]
    dsimp only
    rw [if_pos rfl]
    exact key r _ defaults_full

/-- The console shows what the sequences mean. -/
theorem run_shows (best : Nat × Nat × Nat → Option (BitVec 8)) (dflt : Nat) {l m : Look} {o : List Out} {texts : List (Look × List Nat)} (h : Shows l o texts m) :
    ∀ s : Console, On best dflt s l → Fine best l → Calm best l o →
      ∃ ts s', s.run best dflt o = some (ts, s') ∧ On best dflt s' m ∧ Fine best m ∧ s'.word / 256 % 128 = s.word / 256 % 128 ∧
        ts.map (·.2) = texts.map (·.2) ∧ ∀ x ∈ ts.zip texts, On best dflt x.1.1 x.2.1 ∧ x.1.1.word / 256 % 128 = s.word / 256 % 128 := by
  induction h with
  | done =>
    intro s hs hf _
    exact ⟨[], s, rfl, hs, hf, rfl, rfl, by simp⟩
  | @text l d o t m _ ih =>
    intro s hs hf hc
    generalize ho : ([.text d] ++ o : List Out) = o' at hc
    cases hc with
    | text hc =>
      simp at ho
      obtain ⟨rfl, rfl⟩ := ho
      obtain ⟨ts, s', h1, h2, h3, h4, h5, h6⟩ := ih s hs hf hc
      refine ⟨(s, d) :: ts, s', ?_, h2, h3, h4, ?_, ?_⟩
      · rw [List.singleton_append, Console.run, h1]
        rfl
      · simp [h5]
      · intro x hx
        rw [List.singleton_append, List.zip_cons_cons, List.mem_cons] at hx
        rcases hx with rfl | hx
        · exact ⟨hs, rfl⟩
        · exact h6 x hx
    | _ => simp at ho
  | @seq l b l' o t m hb _ ih =>
    intro s hs hf hc
    generalize ho : ([.seq b] ++ o : List Out) = o' at hc
    cases hc with
    | @seq _ _ m' _ c1 c2 c3 c4 c5 c6 =>
      simp at ho
      obtain ⟨rfl, rfl⟩ := ho
      obtain rfl := sequence_unique hb c4
      have e : l' = over l (sgr (numbers b)) := (sequence_iff b l l').2 hb
      obtain ⟨f, hfn⟩ := number_any (dflt % 16) hf.1
      obtain ⟨g, hgn⟩ := number_any (dflt % 16) c5.1
      obtain ⟨k, hkn⟩ := number_any (dflt / 16 % 16) c5.2.1
      have hset := set_iff best dflt s l (sgr (numbers b)) (sgr_wf _) hs hf.2.2 f g k hfn (by rw [← e]; exact hgn) (by rw [← e]; exact hkn)
      rw [← e] at hset
      have hon : On best dflt (s.setAttributes best dflt (sgr (numbers b))) l' := by
        refine hset.1.2 ⟨c5.2.2, ?_, ?_⟩
        · intro i1 i2 i3
          rcases c3 with c3 | c3
          · rw [i3] at c3
            exact absurd c3 (by decide)
          · rw [(sgr_reset _ c3).2.2.1] at i2
            exact absurd i2 (by decide)
        · intro i1 i2 i3
          rcases c3 with c3 | c3
          · rw [i3] at c3
            exact absurd c3 (by decide)
          · rw [(sgr_reset _ c3).1] at i1
            exact absurd i1 (by decide)
      obtain ⟨ts, s', h1, h2, h3, h4, h5, h6⟩ := ih _ hon c5 c6
      rw [hset.2.1] at h4 h6
      refine ⟨ts, s', ?_, h2, h3, h4, h5, h6⟩
      rw [List.singleton_append, Console.run, decode_body b 109 c1 (by omega) c2]
      exact h1
    | _ => simp at ho

/-! What the printer writes can be shown. -/

theorem calm_append {best : Nat × Nat × Nat → Option (BitVec 8)} {l m : Look} {o o' : List Out} {t : List (Look × List Nat)} (h : Shows l o t m) (hc : Calm best l o) (hc' : Calm best m o') : Calm best l (o ++ o') := by
  induction h with
  | done => exact hc'
  | @text l d o t m _ ih =>
    generalize ho : ([.text d] ++ o : List Out) = o'' at hc
    cases hc with
    | text hc =>
      simp at ho
      obtain ⟨rfl, rfl⟩ := ho
      rw [List.append_assoc]
      exact .text (ih hc hc')
    | _ => simp at ho
  | @seq l b l' o t m hb _ ih =>
    generalize ho : ([.seq b] ++ o : List Out) = o'' at hc
    cases hc with
    | seq c1 c2 c3 c4 c5 c6 =>
      simp at ho
      obtain ⟨rfl, rfl⟩ := ho
      obtain rfl := sequence_unique hb c4
      rw [List.append_assoc]
      exact .seq c1 c2 c3 c4 c5 (ih c6 hc')
    | _ => simp at ho

theorem tame_fine (best : Nat × Nat × Nat → Option (BitVec 8)) {l : Look} (h : Tame l) : Fine best l := by
  have key : ∀ c : Colour, c.Basic → ∃ n, Number best 0 c n := by
    intro c hc
    cases c with
    | default => exact ⟨_, .default⟩
    | index n => exact ⟨_, .index hc⟩
    | rgb => exact hc.elim
  refine ⟨key _ h.1, key _ h.2.1, ?_⟩
  rw [h.2.2.1]
  simp

theorem piece_small (x : List Nat) (h : ∀ c ∈ x, 48 ≤ c ∧ c < 58) (hl : x.length ≤ 3) : value x ≤ 2147483647 := by
  unfold value
  match x, hl with
  | [], _ => simp
  | [a], _ =>
    have := h a (by simp)
    simp only [List.foldl_cons, List.foldl_nil]
    omega
  | [a, b], _ =>
    have := h a (by simp)
    have := h b (by simp)
    simp only [List.foldl_cons, List.foldl_nil]
    omega
  | [a, b, c], _ =>
    have := h a (by simp)
    have := h b (by simp)
    have := h c (by simp)
    simp only [List.foldl_cons, List.foldl_nil]
    omega
  | _ :: _ :: _ :: _ :: _, hl => simp at hl

theorem and7_lt (n : Nat) : n &&& 7 < 8 := by
  have := Nat.and_le_right (n := n) (m := 7)
  omega

theorem fg_digits (c : BitVec 16) : (∀ x ∈ fgPiece c, 48 ≤ x ∧ x < 58) ∧ (fgPiece c).length ≤ 3 ∧ fgPiece c ≠ [] := by
  unfold fgPiece
  have := and7_lt c.toNat
  split
  · refine ⟨?_, by simp, by simp⟩
    intro x hx
    simp only [List.mem_cons, List.not_mem_nil, or_false] at hx
    rcases hx with rfl | rfl
    · split <;> omega
    · omega
  · decide

theorem bg_digits (c : BitVec 16) : (∀ x ∈ bgPiece c, 48 ≤ x ∧ x < 58) ∧ (bgPiece c).length ≤ 3 ∧ bgPiece c ≠ [] := by
  unfold bgPiece
  have := and7_lt c.toNat
  split
  · split
    · refine ⟨?_, by simp, by simp⟩
      intro x hx
      simp only [List.mem_append, List.mem_cons, List.not_mem_nil, or_false] at hx
      omega
    · refine ⟨?_, by simp, by simp⟩
      intro x hx
      simp only [List.mem_append, List.mem_cons, List.not_mem_nil, or_false, false_or] at hx
      omega
  · decide

theorem pieces_digits (d : Attr) : ∀ x ∈ pieces d, (∀ c ∈ x, 48 ≤ c ∧ c < 58) ∧ x.length ≤ 3 ∧ x ≠ [] := by
  have b1 : ∀ x ∈ [Color.bs "0", Color.bs "1", Color.bs "22", Color.bs "4", Color.bs "24"], (∀ c ∈ x, 48 ≤ c ∧ c < 58) ∧ x.length ≤ 3 ∧ x ≠ [] := by decide
  intro x hx
  unfold pieces at hx
  rw [List.mem_append, List.mem_append] at hx
  rcases hx with (hx | hx) | hx
  · split at hx
    · exact b1 x (by simp at hx; simp [hx])
    · rw [List.mem_append] at hx
      rcases hx with hx | hx
      · split at hx
        · rw [List.mem_singleton.1 hx]
          exact fg_digits _
        · simp at hx
      · split at hx
        · rw [List.mem_singleton.1 hx]
          exact bg_digits _
        · simp at hx
  · split at hx
    · refine b1 x ?_
      rw [List.mem_singleton.1 hx]
      cases d.bold <;> simp
    · simp at hx
  · split at hx
    · refine b1 x ?_
      rw [List.mem_singleton.1 hx]
      cases d.underline <;> simp
    · simp at hx

theorem pieces_length (d : Attr) : (pieces d).length ≤ 32 := by
  unfold pieces
  rw [List.length_append, List.length_append]
  have k : ∀ (c : Bool) (x : List Nat), (if c then [x] else []).length ≤ 1 := by
    intro c x
    cases c <;> simp
  have := k d.hasBold (Color.bs (if d.bold then "1" else "22"))
  have := k d.hasUnderline (Color.bs (if d.underline then "4" else "24"))
  split
  · simp only [List.length_singleton]
    omega
  · rw [List.length_append]
    have := k d.hasFg (fgPiece d.fg)
    have := k d.hasBg (bgPiece d.bg)
    omega

theorem join_chars (l : List (List Nat)) (h : ∀ x ∈ l, ∀ c ∈ x, 48 ≤ c ∧ c < 58) : ∀ p, (∀ c ∈ p, 48 ≤ c ∧ c ≤ 59) → ∀ c ∈ l.foldl addParam p, 48 ≤ c ∧ c ≤ 59 := by
  induction l with
  | nil => intro p hp; exact hp
  | cons x r ih =>
    intro p hp
    apply ih (fun y hy => h y (by simp [hy]))
    intro c hc
    unfold addParam at hc
    rw [List.mem_append] at hc
    rcases hc with hc | hc
    · split at hc
      · rw [List.mem_append] at hc
        rcases hc with hc | hc
        · exact hp c hc
        · rw [List.mem_singleton.1 hc]
          omega
      · exact hp c hc
    · have := h x (by simp) c hc
      omega

theorem flush_calm {best : Nat × Nat × Nat → Option (BitVec 8)} {p : Printer} {t l : Look} (h : Shows t p.flush.2 [] l) (hf : Fine best l) (hb : t.bold = false ∨ p.next.fg = 231 ∧ p.next.bg = 231) :
    Calm best t p.flush.2 := by
  rw [flush_pieces] at h ⊢
  dsimp only at h ⊢
  have hd := pieces_digits p.delta
  by_cases hp : pieces p.delta = []
  · rw [hp, if_neg (by simp [join])]
    exact .done
  · obtain ⟨h1, h2⟩ := join_numbers (pieces p.delta) (fun x hx => ⟨(hd x hx).2.2, fun c hc => ((hd x hx).1 c hc).2⟩) (pieces_length _) hp
    rw [if_pos h1] at h ⊢
    refine .seq (join_chars _ (fun x hx => (hd x hx).1) [] (by simp)) ?_ ?_ (shows_seq.1 h).2 hf .done
    · have hfi : fields (join (pieces p.delta)) = pieces p.delta := by
        match hq : pieces p.delta, hp with
        | x :: r, _ =>
          rw [hq] at hd
          have hx := hd x (by simp)
          have e : addParam [] x = x := by simp [addParam]
          have := join_fields r (fun y hy => ⟨(hd y (by simp [hy])).2.2, fun c hc => ((hd y (by simp [hy])).1 c hc).2⟩) x hx.2.2
          unfold join
          rw [List.foldl_cons, e, this.2, fields_digits x (fun c hc => (hx.1 c hc).2)]
          rfl
      rw [hfi]
      intro x hx
      exact piece_small x (hd x hx).1 (hd x hx).2.1
    · rcases hb with hb | hb
      · exact .inl hb
      · have hk : p.delta.fg = defaultCode ∧ p.delta.bg = defaultCode := by
          unfold Printer.delta
          split <;> exact hb
        refine .inr (.inr ?_)
        rw [h2]
        unfold pieces
        rw [if_pos hk]
        rfl

theorem plain_next {p : Printer} {t : Look} (h : Inv p t {}) : p.next.fg = 231 ∧ p.next.bg = 231 := by
  have hn := h.isNext
  rw [over_full h.next] at hn
  exact ⟨(colour_default _).1 (congrArg Look.fg hn).symm, (colour_default _).1 (congrArg Look.bg hn).symm⟩

theorem Inv.flush_calm {best : Nat × Nat × Nat → Option (BitVec 8)} {p : Printer} {t l : Look} (h : Inv p t l) (hb : t.bold = false ∨ l = {}) : Calm best t p.flush.2 := by
  refine Attributes.flush_calm h.flush.1 (tame_fine best h.tame) ?_
  rcases hb with hb | hb
  · exact .inl hb
  · subst hb
    exact .inr (plain_next h)

theorem Inv.print_calm {best : Nat × Nat × Nat → Option (BitVec 8)} {p : Printer} {t l : Look} (h : Inv p t l) (d : List Nat) (hb : t.bold = false) : Calm best t (p.print d).2 := by
  unfold Printer.print
  by_cases hd : d = []
  · rw [if_pos hd]
    exact .done
  · rw [if_neg hd]
    by_cases he : p.next.eq p.set = true
    · simp only [he]
      exact .text .done
    · simp only [he]
      exact calm_append h.flush.1 (h.flush_calm (.inl hb)) (.text .done)

theorem Inv.printAttr_calm {best : Nat × Nat × Nat → Option (BitVec 8)} {p : Printer} {t l : Look} (h : Inv p t l) (a : Attr) (ha : Tame (over l a)) (d : List Nat) (hb : t.bold = false)
    (hc : (over l a).bold = false ∨ l = {}) : Calm best t (p.printAttr a d).2 := by
  have h1 := h.setAttributes a ha
  obtain ⟨t', h2, h3, h4⟩ := h1.print d
  have h5 := h3.back h.next h.tame h.isNext
  have ht : t'.bold = false ∨ l = {} := by
    by_cases hd : d = []
    · rw [if_pos hd] at h2
      have e : ((p.setAttributes a).1.print d).2 = [] := by simp [Printer.print, hd]
      rw [e] at h2
      rw [(shows_nil.1 h2).2]
      exact .inl hb
    · rw [h4 hd]
      exact hc
  exact calm_append h2 (h1.print_calm d hb) (h5.flush_calm ht)

theorem Inv.printText_calm {best : Nat × Nat × Nat → Option (BitVec 8)} {p : Printer} {t l : Look} (h : Inv p t l) (s d : List Nat) {l' : Look} (hs : Sequence s l l') (hc : l = {} ∨ p.nodiff = true ∧ l'.reverse = false)
    (hb : t.bold = false) (hlb : l.bold = false) (c1 : ∀ c ∈ s, 48 ≤ c ∧ c ≤ 59) (c2 : ∀ x ∈ fields s, value x ≤ 2147483647) (c3 : Fine best l') (c4 : l'.bold = false ∨ l = {}) :
    Calm best t (p.printText s d).2 := by
  obtain ⟨q, o, hq, h1, h2, hset, hnd, ho⟩ : ∃ q o, (if !p.next.eq p.set then p.flush else (p, [])) = (q, o) ∧ Shows t o [] l ∧ Inv q l l ∧ q.set = q.next ∧ (q.next = p.next ∧ q.nodiff = p.nodiff) ∧ Calm best t o := by
    by_cases he : p.next.eq p.set = true
    · have := (eq_full h.next h.set).1 he
      have e : t = l := by rw [h.isSet, h.isNext, this]
      refine ⟨p, [], by simp [he], ?_, e ▸ h, this.symm, ⟨rfl, rfl⟩, .done⟩
      rw [e]
      exact .done
    · obtain ⟨h1, h2⟩ := h.flush
      exact ⟨p.flush.1, p.flush.2, by simp [he], h1, h2, rfl, ⟨rfl, rfl⟩, h.flush_calm (.inl hb)⟩
  have hp : q.print d = (q, if d = [] then [] else [.text d]) := by
    unfold Printer.print
    by_cases hd : d = []
    · rw [if_pos hd, if_pos hd]
    · have : q.next.eq q.set = true := (eq_full h2.next h2.set).2 hset.symm
      rw [if_neg hd, if_neg hd]
      simp [this]
  have hback : (q.setAttributes p.next).1 = q := by
    rw [Printer.setAttributes, hnd.1]
    dsimp only
    rw [← hnd.1, merge_self h2.next]
  have e : p.printText s d = ({ q.flush.1 with nodiff := true }, o ++ [.seq s] ++ (if d = [] then [] else [.text d]) ++ q.flush.2) := by
    unfold Printer.printText
    rw [hq]
    dsimp only
    rw [hp]
    dsimp only
    rw [hback]
  have hfl := restore h2 (l' := l') (hc.imp id fun k => ⟨hnd.2.trans k.1, k.2⟩)
  rw [e]
  dsimp only
  have m1 : Shows l ([.seq s] ++ (if d = [] then [] else [.text d])) (if d = [] then [] else [(l', d)]) l' := by
    refine .seq hs ?_
    by_cases hd : d = []
    · rw [if_pos hd, if_pos hd]
      exact .done
    · rw [if_neg hd, if_neg hd]
      exact .text .done
  have m2 : Calm best l ([.seq s] ++ (if d = [] then [] else [.text d])) := by
    refine .seq c1 c2 (.inl hlb) hs c3 ?_
    by_cases hd : d = []
    · rw [if_pos hd]
      exact .done
    · rw [if_neg hd]
      exact .text .done
  rw [List.append_assoc o]
  refine calm_append (shows_append h1 m1) (calm_append h1 ho m2) (Attributes.flush_calm hfl (tame_fine best h2.tame) ?_)
  rcases c4 with c4 | c4
  · exact .inl c4
  · subst c4
    exact .inr (plain_next h2)

theorem perform_calm {best : Nat × Nat × Nat → Option (BitVec 8)} {l m : Look} {ops : List Op} {texts : List (Look × List Nat)} (hw : Wants l ops texts m) : ∀ (p : Printer) (t : Look), Inv p t l → AllTame p.nodiff l ops →
    t.bold = false → l.bold = false → AllCalm best l ops → Calm best t (perform p ops).2 := by
  induction hw with
  | done => intro p t _ _ _ _ _; exact .done
  | @set l a r texts m _ ih =>
    intro p t h ha hb hl hc
    generalize ho : ([.set a] ++ r : List Op) = ops at ha
    rw [ho] at hc
    cases ha with
    | set h1 h2 =>
      simp at ho
      obtain ⟨rfl, rfl⟩ := ho
      cases hc with
      | set c1 c2 => exact ih _ t (h.setAttributes _ h1) h2 hb c1 c2
    | _ => simp at ho
  | @print l d r texts m _ ih =>
    intro p t h ha hb hl hc
    generalize ho : ([.print d] ++ r : List Op) = ops at ha
    rw [ho] at hc
    cases ha with
    | print h2 =>
      simp at ho
      obtain ⟨rfl, rfl⟩ := ho
      cases hc with
      | print c2 =>
        obtain ⟨t', h3, h4, h5⟩ := h.print d
        refine calm_append h3 (h.print_calm d hb) (ih _ t' h4 (by rw [print_nodiff]; exact h2) ?_ hl c2)
        by_cases hd : d = []
        · rw [if_pos hd] at h3
          have e : (p.print d).2 = [] := by simp [Printer.print, hd]
          rw [e] at h3
          rw [(shows_nil.1 h3).2]
          exact hb
        · rw [h5 hd]
          exact hl
    | _ => simp at ho
  | @printAttr l a d r texts m _ ih =>
    intro p t h ha hb hl hc
    generalize ho : ([.printAttr a d] ++ r : List Op) = ops at ha
    rw [ho] at hc
    cases ha with
    | printAttr h1 h2 =>
      simp at ho
      obtain ⟨⟨rfl, rfl⟩, rfl⟩ := ho
      cases hc with
      | printAttr c1 c2 =>
        obtain ⟨h3, h4⟩ := h.printAttr a h1 d
        exact calm_append h3 (h.printAttr_calm a h1 d hb c1) (ih _ l h4 (by rw [printAttr_nodiff]; exact h2) hl hl c2)
    | _ => simp at ho
  | @printText l s d l' r texts m hs _ ih =>
    intro p t h ha hb hl hc
    generalize ho : ([.printText s d] ++ r : List Op) = ops at ha
    rw [ho] at hc
    cases ha with
    | @printText _ _ _ _ l'' _ h0 h1 h2 =>
      simp at ho
      obtain ⟨⟨rfl, rfl⟩, rfl⟩ := ho
      obtain rfl := sequence_unique hs h0
      cases hc with
      | @printText _ _ _ k _ c1 c2 c3 c4 c5 c6 =>
        obtain rfl := sequence_unique hs c3
        obtain ⟨h3, h4, h7⟩ := h.printText s d hs h1
        exact calm_append h3 (h.printText_calm s d hs h1 hb hl c1 c2 c4 c5) (ih _ l h4 (by rw [h7]; exact h2) hl hl c6)
    | _ => simp at ho

end Clink.Attributes
