import Verif.Proof.ColorMeaning

/-! Codes of valid descriptions and their effect. -/

namespace Clink.Color

open Spec

/-- What a code of the program says. -/
structure Style where
  reverse : Bool
  bold : Option Bool
  italic : Bool
  underline : Bool
  fg : Colour
  bg : Colour

def OkColour : Colour → Prop
  | .default => True
  | .basic n => n < 16
  | .rgb r g b => r < 256 ∧ g < 256 ∧ b < 256

def colNums (base : Nat) : Colour → List Nat
  | .default => []
  | .basic n => [(if 8 ≤ n then n + 52 else n) + base]
  | .rgb r g b => [base + 8, 2, r, g, b]

def boldNum : Option Bool → List Nat
  | some true => [1]
  | some false => [22]
  | none => []

def boldVal : Option Kind → Option Bool
  | some (.bold b) => some b
  | _ => none

def Style.attrs (s : Style) : List Nat :=
  (if s.reverse then [7] else []) ++ boldNum s.bold ++
    (if s.italic then [3] else []) ++ (if s.underline then [4] else [])

def Style.nums (s : Style) : List Nat := 0 :: (s.attrs ++ colNums 30 s.fg ++ colNums 40 s.bg)

def semis (l : List Nat) : List Nat := l.flatMap fun n => 59 :: digits n

def Style.text (s : Style) : List Nat := 48 :: semis (s.attrs ++ colNums 30 s.fg ++ colNums 40 s.bg)

theorem semis_append (a b : List Nat) : semis (a ++ b) = semis a ++ semis b := List.flatMap_append

theorem find_colour {ks : List Kind} (h : ks.countP Kind.isColour ≤ 1) {k : Kind} (hk : ks.find? Kind.isColour = some k) :
    ks.countP Kind.isRgb = if k.isRgb then 1 else 0 := by
  obtain ⟨hc, a, b, rfl, ha⟩ := List.find?_eq_some_iff_append.1 hk
  rw [List.countP_append, List.countP_cons, hc] at h
  rw [List.countP_append, List.countP_cons]
  have h1 : a.countP Kind.isColour = 0 := by
    rw [List.countP_eq_zero]
    intro x hx
    simpa using ha x hx
  have := rgb_le a
  have := rgb_le b
  simp only [if_true] at h
  omega

theorem colorCode_neg (base : Nat) (hex : Bool) : colorCode base hex (-1) = [] := rfl

theorem colorCode_name (base n : Nat) : colorCode base false (n : Nat) = semis (colNums base (.basic n)) := by
  unfold colorCode
  rw [if_neg (by omega)]
  simp [semis, colNums]

theorem colorCode_rgb (base r g b : Nat) (h : r < 256 ∧ g < 256 ∧ b < 256) :
    colorCode base true (r * 65536 + g * 256 + b : Nat) = semis (colNums base (.rgb r g b)) := by
  obtain ⟨e1, e2, e3⟩ := rgb_split (h := r * 65536 + g * 256 + b) h.2.1 h.2.2 rfl
  unfold colorCode
  rw [if_neg (by omega)]
  simp only [Int.toNat_natCast, e1, e2, e3, if_true]
  have : digits 2 = [50] := by decide +kernel
  simp [semis, colNums, this]
  rfl

/-- The colour of one side. -/
theorem side_code {ks : List Kind} (h : Side ks) (ok : ∀ k ∈ ks, Ok k) (base : Nat) :
    colorCode base (decide (0 < ks.countP Kind.isRgb))
      (if 0 ≤ num (ks.find? Kind.isColour) ∧ decide (0 < ks.countP Kind.isRgb) = false ∧ .bright ∈ ks then num (ks.find? Kind.isColour) + 8
       else num (ks.find? Kind.isColour)) = semis (colNums base (colour ks)) ∧ OkColour (colour ks) := by
  cases hf : ks.find? Kind.isColour with
  | none =>
    have h0 : ks.countP Kind.isColour = 0 := by
      rw [List.countP_eq_zero]
      exact List.find?_eq_none.1 hf
    have h1 : ks.countP Kind.isRgb = 0 := by have := rgb_le ks; omega
    unfold colour
    rw [hf, h1]
    exact ⟨rfl, trivial⟩
  | some k =>
    have hm := List.mem_of_find?_eq_some hf
    have hr := find_colour h.colour hf
    have hc := List.find?_some hf
    unfold colour
    rw [hf]
    cases k with
    | name n =>
      have hr : ks.countP Kind.isRgb = 0 := hr
      have hok : n < 8 := ok _ hm
      simp only [hr, num]
      by_cases hb : .bright ∈ ks
      · rw [if_pos ⟨by omega, rfl, hb⟩, if_pos hb]
        refine ⟨?_, ?_⟩
        · rw [show ((n : Int) + 8) = ((n + 8 : Nat) : Int) by omega]
          exact colorCode_name base (n + 8)
        · show n + 8 < 16
          omega
      · rw [if_neg (fun h => hb h.2.2), if_neg hb]
        refine ⟨colorCode_name base n, ?_⟩
        show n < 16
        omega
    | rgb r g b =>
      have hr : ks.countP Kind.isRgb = 1 := hr
      simp only [hr, num]
      rw [if_neg (fun h => by simp at h)]
      exact ⟨colorCode_rgb base r g b (ok _ hm), ok _ hm⟩
    | _ => simp [Kind.isColour] at hc

/-- The colour of the text if `on` follows. -/
theorem front_code {ks : List Kind} (h : Side ks) (ok : ∀ k ∈ ks, Ok k) :
    colorCode 30 (decide (0 < ks.countP Kind.isRgb))
      (if decide (0 < ks.countP Kind.isRgb) = false ∧ .bright ∈ ks then num (ks.find? Kind.isColour) + 8 else num (ks.find? Kind.isColour)) =
      semis (colNums 30 (if .bright ∈ ks ∧ ks.countP Kind.isColour = 0 then .basic 7 else colour ks)) ∧
      OkColour (if .bright ∈ ks ∧ ks.countP Kind.isColour = 0 then .basic 7 else colour ks) := by
  by_cases h0 : ks.countP Kind.isColour = 0
  · have h1 : ks.countP Kind.isRgb = 0 := by have := rgb_le ks; omega
    by_cases hb : .bright ∈ ks
    · rw [if_pos (show Kind.bright ∈ ks ∧ ks.countP Kind.isColour = 0 from ⟨hb, h0⟩), h1, find_none h0, if_pos ⟨rfl, hb⟩]
      refine ⟨colorCode_name 30 7, ?_⟩
      show 7 < 16
      omega
    · rw [if_neg (show ¬ (Kind.bright ∈ ks ∧ ks.countP Kind.isColour = 0) from fun h => hb h.1), if_neg (fun h => hb h.2)]
      have := side_code h ok 30
      rw [if_neg (fun h => hb h.2.2)] at this
      exact this
  · rw [if_neg (fun h : _ ∧ _ => h0 h.2)]
    have := side_code h ok 30
    have hn := num_nonneg (ks := ks)
    simp only [hn, show 0 < ks.countP Kind.isColour by omega, true_and] at this
    exact this

def styleOf (front back : List Kind) (on : Bool) : Style :=
  { reverse := decide (.reverse ∈ front ++ back)
    bold := boldVal (front.find? Kind.isBold)
    italic := decide (.italic ∈ front)
    underline := decide (.underline true ∈ front)
    fg := if on = true ∧ .bright ∈ front ∧ front.countP Kind.isColour = 0 then .basic 7 else colour front
    bg := colour back }

theorem bold_code (o : Option Kind) (ho : ∀ k, o = some k → k.isBold = true) :
    (if 0 < boldOf (-1) o then bs ";1" else if boldOf (-1) o = 0 then bs ";22" else []) =
      semis (boldNum (boldVal o)) := by
  cases o with
  | none => rfl
  | some k =>
    have := ho k rfl
    cases k with
    | bold b =>
      clear this ho
      cases b <;> decide +kernel
    | _ => simp [Kind.isBold] at this

theorem underline_code {ks : List Kind} (h : ks.countP Kind.isUnderline ≤ 1) :
    (if 0 < boldOf (-1) (ks.find? Kind.isUnderline) then bs ";4" else []) = semis (if decide (.underline true ∈ ks) = true then [4] else []) := by
  cases hf : ks.find? Kind.isUnderline with
  | none =>
    have := List.find?_eq_none.1 hf
    have hn : .underline true ∉ ks := fun h => this _ h rfl
    simp [boldOf, hn, semis]
  | some k =>
    obtain ⟨hc, a, b, rfl, ha⟩ := List.find?_eq_some_iff_append.1 hf
    rw [List.countP_append, List.countP_cons, hc] at h
    simp only [if_true] at h
    cases k with
    | underline u =>
      cases u with
      | true =>
        simp [boldOf]
        decide +kernel
      | false =>
        have h1 : .underline true ∉ a := fun h => by simpa [Kind.isUnderline] using ha _ h
        have h2 : .underline true ∉ b := fun h => by
          have := List.countP_pos_iff.2 ⟨_, h, (rfl : Kind.isUnderline (.underline true) = true)⟩
          omega
        simp [boldOf, h1, h2, semis]
    | _ => simp [Kind.isUnderline] at hc

theorem valid_front {front back : List Kind} {on : Bool} (h : Valid front back on) : Front front := by
  cases h with
  | front h _ _ => exact h
  | both h _ _ _ _ => exact h

theorem valid_back {front back : List Kind} {on : Bool} (h : Valid front back on) : Side back := by
  cases h with
  | front h _ _ => exact ⟨by simp, by simp, by simp, by simp, by simp⟩
  | both _ h _ _ _ => exact h.toSide

theorem back_none {back : List Kind} (h : Back back) : back.find? Kind.isBold = none ∧ back.find? Kind.isUnderline = none ∧ .italic ∉ back :=
  ⟨find_none h.bold, find_none h.underline, h.italic⟩

/-- The code of a valid description. -/
theorem final_code {front back : List Kind} {on : Bool} (h : Valid front back on) (ok : ∀ k ∈ front ++ back, Ok k) :
    St.code (final front back on) = (styleOf front back on).text := by
  have hf := valid_front h
  have okf : ∀ k ∈ front, Ok k := fun k hk => ok k (List.mem_append_left _ hk)
  have okb : ∀ k ∈ back, Ok k := fun k hk => ok k (List.mem_append_right _ hk)
  have hbold := bold_code (front.find? Kind.isBold) fun k hk => List.find?_some hk
  have hund := underline_code hf.underline
  have e1 : bs "0" = [48] := rfl
  have e2 : bs ";7" = semis [7] := by decide +kernel
  have e3 : bs ";3" = semis [3] := by decide +kernel
  have e0 : semis [] = [] := rfl
  cases on with
  | false =>
    have hb : back = [] := by cases h; rfl
    subst hb
    unfold Style.text Style.attrs styleOf final
    simp only [Bool.false_eq_true, if_false, false_and, List.append_nil]
    rw [semis_append, semis_append, semis_append, semis_append, semis_append, ← hbold, ← hund, ← (side_code hf.toSide okf 30).1,
      show semis (colNums 40 (colour [])) = [] from rfl]
    unfold St.code
    rw [after_color, after_hex, e1, e2, e3]
    have hbr : (0 : Int) < (after {} front).bright ↔ .bright ∈ front := by
      unfold after
      simp only
      split <;> simp_all
    simp only [hbr, eq_self]
    split
    · simp [St.setColor, after, colorCode_neg, apply_ite semis, e0]
    · simp [after, colorCode_neg, apply_ite semis, e0]
  | true =>
    have hb : Back back := by cases h; assumption
    obtain ⟨n1, n2, n3⟩ := back_none hb
    unfold Style.text Style.attrs styleOf final
    simp only [if_true, true_and]
    rw [semis_append, semis_append, semis_append, semis_append, semis_append, ← hbold, ← hund, ← (front_code hf.toSide okf).1,
      ← (side_code hb.toSide okb 40).1]
    unfold St.code
    rw [after_color, after_hex, e1, e2, e3]
    have hbr : (0 : Int) < (after (turned (after {} front)) back).bright ↔ .bright ∈ back := by
      unfold after
      simp only
      split <;> simp_all
    have hbr' : (0 : Int) < (after {} front).bright ↔ .bright ∈ front := by
      unfold after
      simp only
      split <;> simp_all
    have t1 : (after (turned (after {} front)) back).fg =
        if decide (0 < front.countP Kind.isRgb) = false ∧ .bright ∈ front then num (front.find? Kind.isColour) + 8 else num (front.find? Kind.isColour) := by
      show (turned (after {} front)).fg = _
      unfold turned
      simp only [after_hex, hbr']
      have : (after {} front).fg = num (front.find? Kind.isColour) := rfl
      rw [this]
      cases decide (0 < front.countP Kind.isRgb) <;> simp
    simp only [hbr, eq_self]
    have t2 : (after (turned (after {} front)) back).bold = boldOf (-1) (front.find? Kind.isBold) := by
      show boldOf (boldOf (-1) (front.find? Kind.isBold)) (back.find? Kind.isBold) = _
      rw [n1]
      rfl
    have t3 : (after (turned (after {} front)) back).underline = boldOf (-1) (front.find? Kind.isUnderline) := by
      show boldOf (boldOf (-1) (front.find? Kind.isUnderline)) (back.find? Kind.isUnderline) = _
      rw [n2]
      rfl
    have t4 : (after (turned (after {} front)) back).italic = decide (.italic ∈ front) := by
      show ((false || decide (.italic ∈ front)) || decide (.italic ∈ back)) = _
      simp [n3]
    have t5 : (after (turned (after {} front)) back).reverse = decide (.reverse ∈ front ++ back) := by
      show ((false || decide (.reverse ∈ front)) || decide (.reverse ∈ back)) = _
      simp
    have t6 : (after (turned (after {} front)) back).fgHex = decide (0 < front.countP Kind.isRgb) := rfl
    have t7 : (after (turned (after {} front)) back).bgHex = decide (0 < back.countP Kind.isRgb) := rfl
    have t8 : (after (turned (after {} front)) back).bg = num (back.find? Kind.isColour) := rfl
    have t9 : (after (turned (after {} front)) back).onBg = true := rfl
    split
    · simp only [St.setColor, t9, if_true, t1, t2, t3, t4, t5, t6, t7]
      simp [apply_ite semis, e0]
    · simp only [t1, t2, t3, t4, t5, t6, t7, t8]
      simp [apply_ite semis, e0]

theorem style_ok {front back : List Kind} {on : Bool} (h : Valid front back on) (ok : ∀ k ∈ front ++ back, Ok k) :
    OkColour (styleOf front back on).fg ∧ OkColour (styleOf front back on).bg := by
  have hf := valid_front h
  have okf : ∀ k ∈ front, Ok k := fun k hk => ok k (List.mem_append_left _ hk)
  have okb : ∀ k ∈ back, Ok k := fun k hk => ok k (List.mem_append_right _ hk)
  refine ⟨?_, (side_code (valid_back h) okb 40).2⟩
  cases on with
  | false =>
    unfold styleOf
    simp only [Bool.false_eq_true, false_and, if_false]
    exact (side_code hf.toSide okf 30).2
  | true =>
    unfold styleOf
    simp only [true_and]
    exact (front_code hf.toSide okf).2

/-! ### The effect -/

theorem apply_fg {c : Colour} (h : OkColour c) (l : List Nat) (a : Attr) (ha : a.fg = .default) : apply (colNums 30 c ++ l) a = apply l { a with fg := c } := by
  cases c with
  | default => cases a; cases ha; rfl
  | basic n =>
    have hn : n < 16 := h
    clear h ha
    revert hn
    match n with
    | 0 | 1 | 2 | 3 | 4 | 5 | 6 | 7 | 8 | 9 | 10 | 11 | 12 | 13 | 14 | 15 => intro _; simp [colNums, apply, one]
    | n + 16 => intro h; omega
  | rgb r g b => rfl

theorem apply_bg {c : Colour} (h : OkColour c) (l : List Nat) (a : Attr) (ha : a.bg = .default) : apply (colNums 40 c ++ l) a = apply l { a with bg := c } := by
  cases c with
  | default => cases a; cases ha; rfl
  | basic n =>
    have hn : n < 16 := h
    clear h ha
    revert hn
    match n with
    | 0 | 1 | 2 | 3 | 4 | 5 | 6 | 7 | 8 | 9 | 10 | 11 | 12 | 13 | 14 | 15 => intro _; simp [colNums, apply, one]
    | n + 16 => intro h; omega
  | rgb r g b => rfl

/-- The effect of the numbers. -/
theorem apply_nums (s : Style) (h1 : OkColour s.fg) (h2 : OkColour s.bg) (a : Attr) :
    apply s.nums a = { reverse := s.reverse, bold := s.bold == some true, italic := s.italic, underline := s.underline, fg := s.fg, bg := s.bg } := by
  have key : ∀ l : List Nat, apply (0 :: (s.attrs ++ l)) a =
      apply l { reverse := s.reverse, bold := s.bold == some true, italic := s.italic, underline := s.underline, fg := .default, bg := .default } := by
    intro l
    obtain ⟨r, b, i, u, fg, bg⟩ := s
    have e0 : apply (0 :: (Style.attrs ⟨r, b, i, u, fg, bg⟩ ++ l)) a = apply (Style.attrs ⟨r, b, i, u, fg, bg⟩ ++ l) {} := by simp [apply, one]
    rw [e0]
    unfold Style.attrs boldNum
    rcases b with _ | _ | _ <;> cases r <;> cases i <;> cases u <;> simp [apply, one]
  unfold Style.nums
  rw [List.append_assoc, key, apply_fg h1 _ _ rfl]
  have := apply_bg h2 [] { reverse := s.reverse, bold := s.bold == some true, italic := s.italic, underline := s.underline, fg := s.fg, bg := .default } rfl
  rw [List.append_nil] at this
  rw [this]
  rfl

theorem bold_meaning {ks : List Kind} (h : ks.countP Kind.isBold ≤ 1) :
    (boldVal (ks.find? Kind.isBold) == some true) = decide (.bold true ∈ ks) := by
  cases hf : ks.find? Kind.isBold with
  | none =>
    have := List.find?_eq_none.1 hf
    have hn : .bold true ∉ ks := fun h => this _ h rfl
    simp [hn, boldVal]
  | some k =>
    obtain ⟨hc, a, b, rfl, ha⟩ := List.find?_eq_some_iff_append.1 hf
    rw [List.countP_append, List.countP_cons, hc] at h
    simp only [if_true] at h
    cases k with
    | bold u =>
      cases u with
      | true => simp [boldVal]
      | false =>
        have h1 : .bold true ∉ a := fun h => by simpa [Kind.isBold] using ha _ h
        have h2 : .bold true ∉ b := fun h => by
          have := List.countP_pos_iff.2 ⟨_, h, (rfl : Kind.isBold (.bold true) = true)⟩
          omega
        simp [h1, h2, boldVal]
    | _ => simp [Kind.isBold] at hc

/-! ### Numbers in digits -/

theorem digits_decimal (n : Nat) : Decimal (digits n) n := by
  induction n using Nat.strongRecOn with
  | _ n ih =>
    unfold digits
    split
    · refine ⟨by simp, ?_, ?_⟩
      · intro c hc
        rw [List.mem_singleton.1 hc]
        omega
      · simp
    · obtain ⟨h1, h2, h3⟩ := ih (n / 10) (by omega)
      refine ⟨by simp, ?_, ?_⟩
      · intro c hc
        rcases List.mem_append.1 hc with hc | hc
        · exact h2 c hc
        · rw [List.mem_singleton.1 hc]
          omega
      · rw [List.foldl_append, h3]
        simp
        omega

theorem params_semis (n : Nat) (l : List Nat) : Params (digits n ++ semis l) (n :: l) := by
  induction l generalizing n with
  | nil =>
    rw [show semis [] = [] from rfl, List.append_nil]
    exact .last (digits_decimal n)
  | cons m l ih =>
    have : semis (m :: l) = 59 :: (digits m ++ semis l) := by simp [semis]
    rw [this]
    exact .more (digits_decimal n) (ih m)

theorem style_params (s : Style) : Params s.text s.nums := by
  have := params_semis 0 (s.attrs ++ colNums 30 s.fg ++ colNums 40 s.bg)
  rw [show digits 0 = [48] by decide +kernel] at this
  exact this

end Clink.Color
