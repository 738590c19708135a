import Verif.Proof.ColorCode

/-! Codes are saved as descriptions, and read again. -/

namespace Clink.Color

open Spec

theorem int_digits {n : Nat} (h : n < 256) : int (digits n) = some (n : Int) := by
  have : ∀ n < 256, int (digits n) = some (n : Int) := by decide +kernel
  exact this n h

/-- Words with a blank after each. -/
def sp (ws : List (List Nat)) : List Nat := ws.flatMap (· ++ [32])

theorem sp_append (a b : List (List Nat)) : sp (a ++ b) = sp a ++ sp b := List.flatMap_append

def colWords : Colour → List (List Nat)
  | .default => []
  | .basic n => (if 8 ≤ n then [bs "bright"] else []) ++ [names.getD (n % 8) []]
  | .rgb r g b => [35 :: hex2 r ++ hex2 g ++ hex2 b]

def boldWords : Option Bool → List (List Nat)
  | some true => [bs "bold"]
  | some false => [bs "nobold"]
  | none => []

def Style.attrWords (s : Style) : List (List Nat) :=
  (if s.reverse then [bs "reverse"] else []) ++ boldWords s.bold ++ (if s.italic then [bs "italic"] else []) ++
    (if s.underline then [bs "underline"] else [])

def Style.backWords (s : Style) : List (List Nat) :=
  if s.bg = .default then [] else (if s.fg = .default then [bs "default"] else []) ++ [bs "on"] ++ colWords s.bg

def Style.words (s : Style) : List (List Nat) := s.attrWords ++ colWords s.fg ++ s.backWords

theorem format_attrs (compat : Bool) (s : Style) (P : List (List Nat)) :
    ∃ e, e ≤ 5 ∧ 1 ≤ e ∧
      formatLoop compat 0 false [] (digits 0 :: (s.attrs.map digits ++ P)) = formatLoop compat e false (sp s.attrWords) P := by
  have i0 := int_digits (n := 0) (by decide)
  have i1 := int_digits (n := 1) (by decide)
  have i3 := int_digits (n := 3) (by decide)
  have i4 := int_digits (n := 4) (by decide)
  have i7 := int_digits (n := 7) (by decide)
  have i22 := int_digits (n := 22) (by decide)
  have h0 : ∀ P, formatLoop compat 0 false [] (digits 0 :: P) = formatLoop compat 1 false [] P := by
    intro P
    rw [formatLoop]
    simp [i0]
  have h7 : ∀ out P, formatLoop compat 1 false out (digits 7 :: P) = formatLoop compat 2 false (out ++ bs "reverse ") P := by
    intro out P
    rw [formatLoop]
    simp [i7]
  have h1 : ∀ e out P, 1 ≤ e → e ≤ 2 → formatLoop compat e false out (digits 1 :: P) = formatLoop compat 3 false (out ++ bs "bold ") P := by
    intro e out P he he'
    rw [formatLoop]
    simp [i1, show ¬ 7 ≤ e by omega, show e ≠ 0 by omega, show ¬ 2 < e by omega]
  have h22 : ∀ e out P, 1 ≤ e → e ≤ 2 → formatLoop compat e false out (digits 22 :: P) = formatLoop compat 3 false (out ++ bs "nobold ") P := by
    intro e out P he he'
    rw [formatLoop]
    simp [i22, show ¬ 7 ≤ e by omega, show e ≠ 0 by omega, show ¬ 2 < e by omega]
  have h3 : ∀ e out P, 1 ≤ e → e ≤ 3 → formatLoop compat e false out (digits 3 :: P) = formatLoop compat 4 false (out ++ bs "italic ") P := by
    intro e out P he he'
    rw [formatLoop]
    simp [i3, show ¬ 7 ≤ e by omega, show e ≠ 0 by omega, show ¬ 3 < e by omega]
  have h4 : ∀ e out P, 1 ≤ e → e ≤ 4 → formatLoop compat e false out (digits 4 :: P) = formatLoop compat 5 false (out ++ bs "underline ") P := by
    intro e out P he he'
    rw [formatLoop]
    simp [i4, show ¬ 7 ≤ e by omega, show e ≠ 0 by omega, show ¬ 4 < e by omega]
  rw [h0]
  have s1 : ∃ e, 1 ≤ e ∧ e ≤ 2 ∧ ∀ P, formatLoop compat 1 false [] ((if s.reverse then [7] else []).map digits ++ P) =
      formatLoop compat e false (sp (if s.reverse then [bs "reverse"] else [])) P := by
    cases s.reverse with
    | true => exact ⟨2, by omega, by omega, fun P => h7 [] P⟩
    | false => exact ⟨1, by omega, by omega, fun P => rfl⟩
  obtain ⟨e1, l1, u1, s1⟩ := s1
  have s2 : ∃ e, 1 ≤ e ∧ e ≤ 3 ∧ ∀ out P, formatLoop compat e1 false out ((boldNum s.bold).map digits ++ P) =
      formatLoop compat e false (out ++ sp (boldWords s.bold)) P := by
    match s.bold with
    | some true => exact ⟨3, by omega, by omega, fun out P => h1 e1 out P l1 u1⟩
    | some false => exact ⟨3, by omega, by omega, fun out P => h22 e1 out P l1 u1⟩
    | none =>
      refine ⟨e1, by omega, by omega, fun out P => ?_⟩
      rw [show out ++ sp (boldWords none) = out from List.append_nil _]
      rfl
  obtain ⟨e2, l2, u2, s2⟩ := s2
  have s3 : ∃ e, 1 ≤ e ∧ e ≤ 4 ∧ ∀ out P, formatLoop compat e2 false out ((if s.italic then [3] else []).map digits ++ P) =
      formatLoop compat e false (out ++ sp (if s.italic then [bs "italic"] else [])) P := by
    cases s.italic with
    | true => exact ⟨4, by omega, by omega, fun out P => h3 e2 out P l2 u2⟩
    | false =>
      refine ⟨e2, by omega, by omega, fun out P => ?_⟩
      simp [sp]
  obtain ⟨e3, l3, u3, s3⟩ := s3
  have s4 : ∃ e, 1 ≤ e ∧ e ≤ 5 ∧ ∀ out P, formatLoop compat e3 false out ((if s.underline then [4] else []).map digits ++ P) =
      formatLoop compat e false (out ++ sp (if s.underline then [bs "underline"] else [])) P := by
    cases s.underline with
    | true => exact ⟨5, by omega, by omega, fun out P => h4 e3 out P l3 u3⟩
    | false =>
      refine ⟨e3, by omega, by omega, fun out P => ?_⟩
      simp [sp]
  obtain ⟨e4, l4, u4, s4⟩ := s4
  refine ⟨e4, u4, l4, ?_⟩
  unfold Style.attrs Style.attrWords
  rw [List.map_append, List.map_append, List.map_append, List.append_assoc, List.append_assoc, List.append_assoc, s1, s2, s3, s4, sp_append, sp_append,
    sp_append]

theorem parse24_eq {r g b : Nat} (h : r < 256 ∧ g < 256 ∧ b < 256) (P : List (List Nat)) :
    parse24 (digits 2 :: digits r :: digits g :: digits b :: P) = some (some (35 :: hex2 r ++ hex2 g ++ hex2 b, P)) := by
  unfold parse24
  simp only [int_digits (n := 2) (by decide), int_digits h.1, int_digits h.2.1, int_digits h.2.2, Option.bind_some]
  rw [if_neg (by decide), if_neg (by omega), if_neg (by omega), if_neg (by omega)]
  simp

theorem colorName_eq {n : Nat} (h : n < 16) : colorName ((if 8 ≤ n then n + 52 else n) + 30) = sp (colWords (.basic n)) := by
  have : ∀ n < 16, colorName ((if 8 ≤ n then n + 52 else n) + 30) = sp (colWords (.basic n)) := by decide +kernel
  exact this n h

/-- 24-bit colours are not described in the old format. -/
def Colour.plain : Colour → Bool
  | .rgb _ _ _ => false
  | _ => true

theorem format_fg (compat : Bool) {c : Colour} (hc : OkColour c) (hp : compat = true → Colour.plain c = true) {e : Nat} (he : e ≤ 5) (he' : 1 ≤ e) (out : List Nat) (P : List (List Nat)) :
    ∃ e', e' ≤ 6 ∧ 1 ≤ e' ∧ formatLoop compat e false out ((colNums 30 c).map digits ++ P) = formatLoop compat e' (decide (c ≠ .default)) (out ++ sp (colWords c)) P := by
  cases c with
  | default =>
    refine ⟨e, by omega, he', ?_⟩
    simp [colNums, colWords, sp]
  | basic n =>
    have hn : n < 16 := hc
    refine ⟨6, by omega, by omega, ?_⟩
    rw [← colorName_eq hn]
    show formatLoop compat e false out (digits _ :: P) = _
    obtain ⟨x, hx⟩ : ∃ x, x = (if 8 ≤ n then n + 52 else n) + 30 := ⟨_, rfl⟩
    have hx' : (30 ≤ x ∧ x < 38) ∨ (90 ≤ x ∧ x < 98) := by split at hx <;> omega
    rw [← hx, formatLoop, int_digits (by omega)]
    simp [show ¬ 7 ≤ e by omega, show e ≠ 0 by omega, show x ≠ 0 by omega, show x ≠ 7 by omega, show x ≠ 1 by omega, show x ≠ 22 by omega,
      show x ≠ 3 by omega, show x ≠ 4 by omega, hx', show ¬ 5 < e by omega, show ¬ (x : Int) < 0 by omega]
  | rgb r g b =>
    cases compat with
    | true => simp [Colour.plain] at hp
    | false =>
      refine ⟨6, by omega, by omega, ?_⟩
      show formatLoop false e false out (digits 38 :: digits 2 :: digits r :: digits g :: digits b :: P) = _
      rw [formatLoop, int_digits (by omega)]
      simp [show ¬ 7 ≤ e by omega, show e ≠ 0 by omega, show ¬ 5 < e by omega]
      split
      · rename_i h; rw [parse24_eq hc] at h; cases h
      · rename_i h; rw [parse24_eq hc] at h; cases h
      · rename_i buf rest h
        rw [parse24_eq hc] at h
        cases h
        simp [colWords, sp]
        rfl

theorem format_bg (compat : Bool) {c : Colour} (hc : OkColour c) (hp : compat = true → Colour.plain c = true) {e : Nat} (he : e ≤ 6) (he' : 1 ≤ e) (fg : Colour) (out : List Nat) :
    formatLoop compat e (decide (fg ≠ .default)) out ((colNums 40 c).map digits) =
      some (some (out ++ sp (if c = .default then [] else (if fg = .default then [bs "default"] else []) ++ [bs "on"] ++ colWords c))) := by
  have hd : ∀ X, sp ((if fg = .default then [bs "default"] else []) ++ [bs "on"] ++ X) =
      (if decide (fg ≠ .default) = true then [] else bs "default ") ++ bs "on " ++ sp X := by
    intro X
    rw [sp_append, sp_append]
    by_cases h : fg = .default
    · rw [if_pos h, if_neg (by simpa using h)]
      rfl
    · rw [if_neg h, if_pos (by simpa using h)]
      rfl
  cases c with
  | default =>
    show formatLoop compat e _ out [] = _
    rw [formatLoop]
    simp [sp]
  | basic n =>
    have hn : n < 16 := hc
    rw [if_neg (by simp), hd, ← colorName_eq hn]
    show formatLoop compat e _ out (digits _ :: []) = _
    obtain ⟨x, hx⟩ : ∃ x, x = (if 8 ≤ n then n + 52 else n) + 40 := ⟨_, rfl⟩
    have hx' : (40 ≤ x ∧ x < 48) ∨ (100 ≤ x ∧ x < 108) := by split at hx <;> omega
    have hx2 : (if 8 ≤ n then n + 52 else n) + 30 = x - 10 := by omega
    rw [← hx, formatLoop, int_digits (by omega), hx2]
    have hx3 : ¬ ((30 ≤ x ∧ x < 38) ∨ (90 ≤ x ∧ x < 98)) := by omega
    simp only [Int.toNat_natCast, show ¬ 7 ≤ e by omega, show e ≠ 0 by omega, show x ≠ 0 by omega, show x ≠ 7 by omega, show x ≠ 1 by omega, show x ≠ 22 by omega,
      show x ≠ 3 by omega, show x ≠ 4 by omega, hx', hx3, show ¬ 6 < e by omega, show ¬ (x : Int) < 0 by omega, show x ≠ 38 by omega, show x ≠ 39 by omega,
      false_and, if_false, if_true, or_self, false_or]
    rw [formatLoop]
    simp
  | rgb r g b =>
    cases compat with
    | true => simp [Colour.plain] at hp
    | false =>
      rw [if_neg (by simp), hd]
      show formatLoop false e _ out (digits 48 :: digits 2 :: digits r :: digits g :: digits b :: []) = _
      obtain ⟨any, ha⟩ : ∃ any, any = decide (fg ≠ .default) := ⟨_, rfl⟩
      rw [← ha]
      rw [formatLoop, int_digits (by omega)]
      simp only [show ¬ ((48 : Nat) : Int) < 0 by decide, if_false, Int.toNat_natCast, show ¬ 7 ≤ e by omega, show e ≠ 0 by omega, show ¬ 6 < e by omega,
        false_and, show (48 : Nat) ≠ 0 by decide, show (48 : Nat) ≠ 7 by decide, show (48 : Nat) ≠ 1 by decide, show (48 : Nat) ≠ 22 by decide,
        show (48 : Nat) ≠ 3 by decide, show (48 : Nat) ≠ 4 by decide, show (48 : Nat) ≠ 38 by decide, show (48 : Nat) ≠ 39 by decide, or_self,
        show ¬ ((30 ≤ 48 ∧ 48 < 38) ∨ (90 ≤ 48 ∧ 48 < 98)) by decide, show ¬ ((40 ≤ 48 ∧ 48 < 48) ∨ (100 ≤ 48 ∧ 48 < 108)) by decide, true_and, if_true]
      split
      · rename_i h; rw [parse24_eq hc] at h; cases h
      · rename_i h; rw [parse24_eq hc] at h; cases h
      · rename_i buf rest h
        rw [parse24_eq hc] at h
        cases h
        rw [formatLoop]
        simp [colWords, sp]
        rfl

/-- 24-bit colours in the old format. -/
theorem format_old {x : Nat} (hx : x = 38 ∨ x = 48) (e : Nat) (any : Bool) (out : List Nat) (P : List (List Nat)) :
    formatLoop true e any out (digits x :: P) = some none := by
  rw [formatLoop, int_digits (by omega)]
  rcases hx with rfl | rfl <;> simp

theorem format_old_style (s : Style) (h1 : OkColour s.fg) (h : ¬ (Colour.plain s.fg = true ∧ Colour.plain s.bg = true)) :
    formatLoop true 0 false [] (s.nums.map digits) = some none := by
  unfold Style.nums
  rw [List.map_cons, List.map_append, List.map_append, List.append_assoc]
  obtain ⟨e, l, u, h'⟩ := format_attrs true s ((colNums 30 s.fg).map digits ++ (colNums 40 s.bg).map digits)
  rw [h']
  by_cases hp : Colour.plain s.fg = true
  · obtain ⟨e', l', u', h'⟩ := format_fg true h1 (fun _ => hp) l u (sp s.attrWords) ((colNums 40 s.bg).map digits)
    rw [h']
    cases hb : s.bg with
    | rgb r g b => exact format_old (.inr rfl) _ _ _ _
    | default => exact absurd ⟨hp, by rw [hb]; rfl⟩ h
    | basic n => exact absurd ⟨hp, by rw [hb]; rfl⟩ h
  · cases hb : s.fg with
    | rgb r g b => exact format_old (.inl rfl) _ _ _ _
    | default => exact absurd (by rw [hb]; rfl) hp
    | basic n => exact absurd (by rw [hb]; rfl) hp

/-- Codes are described word by word. -/
theorem format_style (compat : Bool) (s : Style) (h1 : OkColour s.fg) (h2 : OkColour s.bg)
    (hp : compat = true → Colour.plain s.fg = true ∧ Colour.plain s.bg = true) :
    formatLoop compat 0 false [] (s.nums.map digits) = some (some (sp s.words)) := by
  unfold Style.nums
  rw [List.map_cons, List.map_append, List.map_append, List.append_assoc]
  obtain ⟨e, l, u, h⟩ := format_attrs compat s ((colNums 30 s.fg).map digits ++ (colNums 40 s.bg).map digits)
  rw [h]
  obtain ⟨e', l', u', h'⟩ := format_fg compat h1 (fun h => (hp h).1) l u (sp s.attrWords) ((colNums 40 s.bg).map digits)
  rw [h', format_bg compat h2 (fun h => (hp h).2) l' u' s.fg, ← sp_append, ← sp_append]
  rfl

/-! ### The text of the description -/

/-- Words as the program writes them. -/
def WordOk (w : List Nat) : Prop := w ≠ [] ∧ ∀ c ∈ w, 32 < c ∧ c < 128

instance (w : List Nat) : Decidable (WordOk w) := by unfold WordOk; infer_instance

/-- The last character is neither a blank nor the last one of `default`. -/
def LastOk (ws : List (List Nat)) : Prop := ∃ l w c, ws = l ++ [w ++ [c]] ∧ c ≠ 116 ∧ c ≠ 32

theorem lastOk_append (a : List (List Nat)) {b : List (List Nat)} (h : LastOk b) : LastOk (a ++ b) := by
  obtain ⟨l, w, c, rfl, h⟩ := h
  exact ⟨a ++ l, w, c, by simp, h⟩

theorem lastOk_one {w : List Nat} (h : w ≠ []) (h1 : w.getLast? ≠ some 116) (h2 : w.getLast? ≠ some 32) : LastOk [w] := by
  rcases snoc_cases w with rfl | ⟨a, c, rfl⟩
  · exact absurd rfl h
  · simp at h1 h2
    exact ⟨[], a, c, rfl, h1, h2⟩

theorem hexChar_range {n : Nat} (h : n < 16) : 48 ≤ hexChar n ∧ hexChar n ≤ 70 := by
  unfold hexChar
  split <;> omega

theorem hex2_ok {n : Nat} (h : n < 256) : ∀ c ∈ hex2 n, 48 ≤ c ∧ c ≤ 70 := by
  intro c hc
  unfold hex2 at hc
  rcases List.mem_cons.1 hc with rfl | hc
  · exact hexChar_range (by omega)
  · rw [List.mem_singleton.1 hc]
    exact hexChar_range (by omega)

theorem colWords_last {c : Colour} (h : OkColour c) (hd : c ≠ .default) : LastOk (colWords c) := by
  cases c with
  | default => exact absurd rfl hd
  | basic n =>
    have hn : n < 16 := h
    refine lastOk_append _ ?_
    have : ∀ n < 16, names.getD (n % 8) [] ≠ [] ∧ (names.getD (n % 8) []).getLast? ≠ some 116 ∧ (names.getD (n % 8) []).getLast? ≠ some 32 := by
      decide +kernel
    obtain ⟨a, b, c⟩ := this n hn
    exact lastOk_one a b c
  | rgb r g b =>
    obtain ⟨-, -, h3⟩ := h
    have := hexChar_range (n := b % 16) (by omega)
    refine ⟨[], 35 :: hex2 r ++ hex2 g ++ [hexChar (b / 16)], hexChar (b % 16), ?_, by omega, by omega⟩
    simp [colWords, hex2]

theorem colWords_ok {c : Colour} (h : OkColour c) : ∀ w ∈ colWords c, WordOk w := by
  cases c with
  | default => simp [colWords]
  | basic n =>
    have : ∀ n < 16, ∀ w ∈ colWords (.basic n), WordOk w := by decide +kernel
    exact this n h
  | rgb r g b =>
    intro w hw
    rw [show colWords (.rgb r g b) = [35 :: hex2 r ++ hex2 g ++ hex2 b] from rfl, List.mem_singleton] at hw
    subst hw
    refine ⟨by simp, fun c hc => ?_⟩
    obtain ⟨h1, h2, h3⟩ := h
    simp only [List.cons_append, List.append_assoc, List.mem_cons, List.mem_append] at hc
    rcases hc with rfl | hc | hc | hc
    · omega
    · have := hex2_ok h1 c hc; omega
    · have := hex2_ok h2 c hc; omega
    · have := hex2_ok h3 c hc; omega

theorem attrWords_ok (s : Style) : (∀ w ∈ s.attrWords, WordOk w) ∧ (s.attrWords ≠ [] → LastOk s.attrWords) := by
  have hc : ∀ w ∈ [bs "reverse", bs "bold", bs "nobold", bs "italic", bs "underline"],
      WordOk w ∧ w ≠ [] ∧ w.getLast? ≠ some 116 ∧ w.getLast? ≠ some 32 := by decide +kernel
  have hsub : ∀ w ∈ s.attrWords, w ∈ [bs "reverse", bs "bold", bs "nobold", bs "italic", bs "underline"] := by
    unfold Style.attrWords
    rcases s.bold with _ | _ | _ <;> cases s.reverse <;> cases s.italic <;> cases s.underline <;> simp [boldWords]
  refine ⟨fun w hw => (hc w (hsub w hw)).1, fun hne => ?_⟩
  rcases snoc_cases s.attrWords with h | ⟨a, w, h⟩
  · exact absurd h hne
  · have := hc w (hsub w (by rw [h]; simp))
    rw [h]
    exact lastOk_append a (lastOk_one this.2.1 this.2.2.1 this.2.2.2)

theorem words_ok (s : Style) (h1 : OkColour s.fg) (h2 : OkColour s.bg) : (∀ w ∈ s.words, WordOk w) ∧ (s.words ≠ [] → LastOk s.words) := by
  constructor
  · intro w hw
    unfold Style.words at hw
    rcases List.mem_append.1 hw with hw | hw
    · rcases List.mem_append.1 hw with hw | hw
      · exact (attrWords_ok s).1 w hw
      · exact colWords_ok h1 w hw
    · unfold Style.backWords at hw
      split at hw
      · cases hw
      · rcases List.mem_append.1 hw with hw | hw
        · rcases List.mem_append.1 hw with hw | hw
          · split at hw
            · rw [List.mem_singleton.1 hw]; decide +kernel
            · cases hw
          · rw [List.mem_singleton.1 hw]; decide +kernel
        · exact colWords_ok h2 w hw
  · intro hne
    unfold Style.words at hne ⊢
    by_cases hb : s.bg = .default
    · have : s.backWords = [] := by unfold Style.backWords; rw [if_pos hb]
      rw [this, List.append_nil] at hne ⊢
      by_cases hf : s.fg = .default
      · rw [hf] at hne ⊢
        rw [show colWords .default = [] from rfl, List.append_nil] at hne ⊢
        exact (attrWords_ok s).2 hne
      · exact lastOk_append _ (colWords_last h1 hf)
    · refine lastOk_append _ ?_
      unfold Style.backWords
      rw [if_neg hb]
      exact lastOk_append _ (colWords_last h2 hb)

theorem words_sp {ws : List (List Nat)} (h : ∀ w ∈ ws, WordOk w) {w : List Nat} (hw : WordOk w) : Words 32 (sp ws ++ w) (ws ++ [w]) := by
  have nb : ∀ w, WordOk w → 32 ∉ w := fun w hw hc => by have := hw.2 32 hc; omega
  induction ws with
  | nil => exact Tok.words_one hw.1 (nb w hw)
  | cons v ws ih =>
    have hv := h v (by simp)
    have := Tok.words_cons (sep := 32) hv.1 (nb v hv) (ih fun w hw => h w (List.mem_cons_of_mem _ hw))
    have e : sp (v :: ws) ++ w = v ++ 32 :: (sp ws ++ w) := by simp [sp]
    rw [e]
    exact this

theorem sp_ascii {ws : List (List Nat)} (h : ∀ w ∈ ws, WordOk w) {w : List Nat} (hw : WordOk w) : Ascii (sp ws ++ w) := by
  intro c hc
  rcases List.mem_append.1 hc with hc | hc
  · obtain ⟨v, hv, hc⟩ := List.mem_flatMap.1 hc
    rcases List.mem_append.1 hc with hc | hc
    · have := (h v hv).2 c hc; omega
    · rw [List.mem_singleton.1 hc]; omega
  · have := hw.2 c hc; omega

theorem stripEnd_none (X : List Nat) {c : Nat} (hc : c ≠ 116) (y : List Nat) : stripEnd (X ++ [c, 32]) (y ++ [116, 32]) = none := by
  unfold stripEnd
  rw [if_neg]
  rintro ⟨-, h⟩
  have h := List.isSuffixOf_iff_suffix.1 h
  obtain ⟨t, h⟩ := h
  have h : (t ++ y) ++ [116, 32] = X ++ [c, 32] := by rw [← h]; simp
  have := (List.append_inj' h rfl).2
  simp at this
  exact hc this.symm

theorem trim_one (X : List Nat) {c : Nat} (hc : c ≠ 32) : trimBlanks (X ++ [c, 32]) = X ++ [c] := by
  unfold trimBlanks
  simp [List.dropWhile_cons, hc]

/-- The tokens of a code. -/
theorem tokens_text (s : Style) : Tok.tokens Utf.iter8 [59] s.text = s.nums.map digits := by
  have key : ∀ n l, Words 59 (digits n ++ semis l) ((n :: l).map digits) := by
    intro n l
    have hd : ∀ n, digits n ≠ [] ∧ 59 ∉ digits n := fun n => by
      obtain ⟨a, b, -⟩ := digits_decimal n
      exact ⟨a, fun h => by have := b 59 h; omega⟩
    induction l generalizing n with
    | nil =>
      rw [show semis [] = [] from rfl, List.append_nil]
      exact Tok.words_one (hd n).1 (hd n).2
    | cons m l ih =>
      have : semis (m :: l) = 59 :: (digits m ++ semis l) := by simp [semis]
      rw [this]
      exact Tok.words_cons (hd n).1 (hd n).2 (ih m)
  have h0 : digits 0 = [48] := by decide +kernel
  have := key 0 (s.attrs ++ colNums 30 s.fg ++ colNums 40 s.bg)
  rw [h0] at this
  refine Tok.tokens_words (by decide) this ?_
  intro c hc
  have hp : ∀ l, ∀ c ∈ semis l, 0 < c ∧ c < 128 := by
    intro l c hc
    obtain ⟨n, -, hc⟩ := List.mem_flatMap.1 hc
    rcases List.mem_cons.1 hc with rfl | hc
    · omega
    · have := (digits_decimal n).2.1 c hc; omega
  rcases List.mem_cons.1 hc with rfl | hc
  · omega
  · exact hp _ c hc

/-- A code after the word `sgr`. -/
theorem parse_sgr {code : List Nat} (h : WordOk code) : parse (bs "sgr " ++ code) = some code := by
  have hs : WordOk (bs "sgr") := by decide +kernel
  have e : bs "sgr " ++ code = sp [bs "sgr"] ++ code := rfl
  have hw := words_sp (ws := [bs "sgr"]) (by simpa using hs) h
  have ht := Tok.tokens_words (by decide) hw (sp_ascii (by simpa using hs) h)
  unfold parse
  rw [if_neg (by simp [bs]), e, ht]
  simp only [List.cons_append, List.nil_append]
  rw [if_pos (by decide +kernel)]

theorem text_ok (s : Style) : WordOk s.text := by
  refine ⟨by simp [Style.text], fun c hc => ?_⟩
  rcases List.mem_cons.1 hc with rfl | hc
  · omega
  · obtain ⟨n, -, hc⟩ := List.mem_flatMap.1 hc
    rcases List.mem_cons.1 hc with rfl | hc
    · omega
    · have := (digits_decimal n).2.1 c hc; omega

/-! ### Reading the description again -/

def colKinds : Colour → List Kind
  | .default => []
  | .basic n => (if 8 ≤ n then [.bright] else []) ++ [.name (n % 8)]
  | .rgb r g b => [.rgb r g b]

def boldKinds : Option Bool → List Kind
  | some b => [.bold b]
  | none => []

def Style.attrKinds (s : Style) : List Kind :=
  (if s.reverse then [.reverse] else []) ++ boldKinds s.bold ++ (if s.italic then [.italic] else []) ++ (if s.underline then [.underline true] else [])

def Style.backKinds (s : Style) : List Kind :=
  if s.bg = .default then [] else (if s.fg = .default then [.default] else []) ++ [.on] ++ colKinds s.bg

def Style.kinds (s : Style) : List Kind := s.attrKinds ++ colKinds s.fg ++ s.backKinds

theorem meanAll_append {a b : List (List Nat)} {x y : List Kind} (h : MeanAll a x) (h' : MeanAll b y) : MeanAll (a ++ b) (x ++ y) := by
  induction h with
  | nil => exact h'
  | cons h t ih => exact .cons h ih

theorem mean_one {w : List Nat} {k : Kind} (h : kindOf w = some k) : MeanAll [w] [k] := .cons (kindOf_means h) .nil

theorem hex_hexChar {n : Nat} (h : n < 16) : Hex (hexChar n) n := by
  unfold hexChar
  split
  · have := Hex.digit (c := 48 + n) (by omega)
    rwa [Nat.add_sub_cancel_left] at this
  · have := Hex.upper (c := 55 + n) (by omega)
    rwa [show 55 + n - 65 + 10 = n by omega] at this

theorem colKinds_mean {c : Colour} (h : OkColour c) : MeanAll (colWords c) (colKinds c) := by
  cases c with
  | default => exact .nil
  | basic n =>
    refine meanAll_append ?_ ?_
    · split
      · exact mean_one (by decide +kernel)
      · exact .nil
    · have : ∀ n < 16, kindOf (names.getD (n % 8) []) = some (.name (n % 8)) := by decide +kernel
      exact mean_one (this n h)
  | rgb r g b =>
    obtain ⟨h1, h2, h3⟩ := h
    have := Means.long (hex_hexChar (n := r / 16) (by omega)) (hex_hexChar (n := r % 16) (by omega)) (hex_hexChar (n := g / 16) (by omega))
      (hex_hexChar (n := g % 16) (by omega)) (hex_hexChar (n := b / 16) (by omega)) (hex_hexChar (n := b % 16) (by omega))
    rw [show 16 * (r / 16) + r % 16 = r by omega, show 16 * (g / 16) + g % 16 = g by omega, show 16 * (b / 16) + b % 16 = b by omega] at this
    exact .cons this .nil

theorem kinds_mean (s : Style) (h1 : OkColour s.fg) (h2 : OkColour s.bg) : MeanAll s.words s.kinds := by
  refine meanAll_append (meanAll_append ?_ (colKinds_mean h1)) ?_
  · refine meanAll_append (meanAll_append (meanAll_append ?_ ?_) ?_) ?_
    · split
      · exact mean_one (by decide +kernel)
      · exact .nil
    · match s.bold with
      | some true => exact mean_one (by decide +kernel)
      | some false => exact mean_one (by decide +kernel)
      | none => exact .nil
    · split
      · exact mean_one (by decide +kernel)
      · exact .nil
    · split
      · exact mean_one (by decide +kernel)
      · exact .nil
  · unfold Style.backWords Style.backKinds
    split
    · exact .nil
    · refine meanAll_append (meanAll_append ?_ (mean_one (by decide +kernel))) (colKinds_mean h2)
      split
      · exact mean_one (by decide +kernel)
      · exact .nil

/-- The state after the attributes. -/
def Style.st (s : Style) : St :=
  { reverse := s.reverse, italic := s.italic, underline := if s.underline then 1 else -1
    bold := match s.bold with | some true => 1 | some false => 0 | none => -1 }

theorem attrKinds_st (s : Style) : stepsK {} s.attrKinds = some s.st := by
  unfold Style.attrKinds Style.st
  rcases s.bold with _ | _ | _ <;> cases s.reverse <;> cases s.italic <;> cases s.underline <;> rfl

theorem attr_code (s : Style) (X : List Nat) :
    bs "0" ++ (if s.st.reverse then bs ";7" else []) ++ (if 0 < s.st.bold then bs ";1" else if s.st.bold = 0 then bs ";22" else []) ++
      (if s.st.italic then bs ";3" else []) ++ (if 0 < s.st.underline then bs ";4" else []) ++ X = 48 :: (semis s.attrs ++ X) := by
  have e2 : bs ";7" = semis [7] := by decide +kernel
  have e3 : bs ";3" = semis [3] := by decide +kernel
  have e4 : bs ";4" = semis [4] := by decide +kernel
  have e5 : bs ";1" = semis [1] := by decide +kernel
  have e6 : bs ";22" = semis [22] := by decide +kernel
  have e1 : bs "0" = [48] := rfl
  have e0 : semis [] = [] := rfl
  unfold Style.st Style.attrs
  rw [semis_append, semis_append, semis_append]
  rcases s.bold with _ | _ | _ <;> cases s.reverse <;> cases s.italic <;> cases s.underline <;> simp [e0, e1, e2, e3, e4, e5, e6, boldNum]

/-- The variables for a colour. -/
def cnum : Colour → Int
  | .default => -1
  | .basic n => n
  | .rgb r g b => (r * 65536 + g * 256 + b : Nat)

def chex : Colour → Bool
  | .rgb _ _ _ => true
  | _ => false

theorem colorCode_eq (base : Nat) {c : Colour} (h : OkColour c) : colorCode base (chex c) (cnum c) = semis (colNums base c) := by
  cases c with
  | default => rfl
  | basic n => exact colorCode_name base n
  | rgb r g b => exact colorCode_rgb base r g b h

/-- What the end of `parse_color` does with `bright`. -/
def brighten (s : St) : St := if 0 ≤ s.color ∧ s.hex = false ∧ 0 < s.bright then s.setColor (s.color + 8) else s

theorem colKinds_basic (n : Nat) : n < 8 → colKinds (.basic n) = [.name n] := by
  intro h
  simp [colKinds, show ¬ 8 ≤ n by omega]
  omega

theorem colKinds_bright (n : Nat) : n < 8 → colKinds (.basic (n + 8)) = [.bright, .name n] := by
  intro h
  simp [colKinds]
  omega

theorem front_steps (s : Style) (h : OkColour s.fg) (hb : s.bg = .default) :
    ∃ t, stepsK s.st (colKinds s.fg) = some t ∧ (brighten t).reverse = s.st.reverse ∧ (brighten t).bold = s.st.bold ∧ (brighten t).italic = s.st.italic ∧
      (brighten t).underline = s.st.underline ∧ (brighten t).fg = cnum s.fg ∧ (brighten t).fgHex = chex s.fg ∧ (brighten t).bg = -1 ∧ (brighten t).bgHex = false := by
  obtain ⟨u, hu⟩ : ∃ u, u = s.st := ⟨_, rfl⟩
  have u1 : u.fg = -1 := by rw [hu]; rfl
  have u2 : u.fgHex = false := by rw [hu]; rfl
  have u3 : u.bg = -1 := by rw [hu]; rfl
  have u4 : u.bgHex = false := by rw [hu]; rfl
  have u5 : u.bright = -1 := by rw [hu]; rfl
  have u6 : u.onBg = false := by rw [hu]; rfl
  rw [← hu]
  clear hu
  cases hc : s.fg with
  | default => exact ⟨u, rfl, by simp [brighten, St.color, u1, u2, u3, u4, u6, cnum, chex]⟩
  | basic n =>
    rw [hc] at h
    have hn : n < 16 := h
    by_cases h8 : n < 8
    · rw [colKinds_basic n h8]
      refine ⟨{ u with fg := n }, by simp [stepsK, stepK, St.color, St.setColor, u1, u6], ?_⟩
      simp [brighten, u2, u3, u4, u5, cnum, chex]
    · obtain ⟨m, rfl⟩ : ∃ m, n = m + 8 := ⟨n - 8, by omega⟩
      rw [colKinds_bright m (by omega)]
      refine ⟨{ u with fg := m, bright := 1 }, by simp [stepsK, stepK, St.color, St.hex, St.setColor, u1, u2, u5, u6], ?_⟩
      simp [brighten, St.color, St.hex, St.setColor, u2, u3, u4, u6, cnum, chex, show (0 : Int) ≤ (m : Int) by omega]
  | rgb r g b =>
    refine ⟨{ u with fg := (r * 65536 + g * 256 + b : Nat), fgHex := true }, ?_, ?_⟩
    · simp [colKinds, stepsK, stepK, St.color, St.setColor, St.setHex, u1, u5, u6]
    · simp [brighten, u3, u4, u5, cnum, chex]

theorem turn_steps (s : Style) (h : OkColour s.fg) :
    stepsK s.st (colKinds s.fg ++ (if s.fg = .default then [.default] else []) ++ [.on]) =
      some { s.st with fg := cnum s.fg, fgHex := chex s.fg, onBg := true } := by
  obtain ⟨u, hu⟩ : ∃ u, u = s.st := ⟨_, rfl⟩
  have u1 : u.fg = -1 := by rw [hu]; rfl
  have u2 : u.fgHex = false := by rw [hu]; rfl
  have u5 : u.bright = -1 := by rw [hu]; rfl
  have u6 : u.onBg = false := by rw [hu]; rfl
  have u7 : u.sawDefault = false := by rw [hu]; rfl
  rw [← hu]
  clear hu
  cases hc : s.fg with
  | default =>
    simp [colKinds, stepsK, stepK, St.color, St.hex, St.setColor, St.setHex, u1, u2, u5, u6, u7, cnum, chex]
  | basic n =>
    rw [hc] at h
    have hn : n < 16 := h
    by_cases h8 : n < 8
    · rw [colKinds_basic n h8]
      simp [stepsK, stepK, St.color, St.hex, St.setColor, u1, u2, u5, u6, u7, cnum, chex]
    · obtain ⟨m, rfl⟩ : ∃ m, n = m + 8 := ⟨n - 8, by omega⟩
      rw [colKinds_bright m (by omega)]
      simp [stepsK, stepK, St.color, St.hex, St.setColor, u1, u2, u5, u6, u7, cnum, chex]
  | rgb r g b =>
    simp [colKinds, stepsK, stepK, St.color, St.hex, St.setColor, St.setHex, u1, u5, u6, u7, cnum, chex]

theorem back_steps (u : St) (u1 : u.bg = -1) (u2 : u.bgHex = false) (u5 : u.bright = -1) (u6 : u.onBg = true) {c : Colour} (h : OkColour c) :
    ∃ t, stepsK u (colKinds c) = some t ∧ (brighten t).reverse = u.reverse ∧ (brighten t).bold = u.bold ∧ (brighten t).italic = u.italic ∧
      (brighten t).underline = u.underline ∧ (brighten t).fg = u.fg ∧ (brighten t).fgHex = u.fgHex ∧ (brighten t).bg = cnum c ∧ (brighten t).bgHex = chex c := by
  cases c with
  | default => exact ⟨u, rfl, by simp [brighten, St.color, u1, u2, u6, cnum, chex]⟩
  | basic n =>
    have hn : n < 16 := h
    by_cases h8 : n < 8
    · rw [colKinds_basic n h8]
      refine ⟨{ u with bg := n }, by simp [stepsK, stepK, St.color, St.setColor, u1, u6], ?_⟩
      simp [brighten, u2, u5, cnum, chex]
    · obtain ⟨m, rfl⟩ : ∃ m, n = m + 8 := ⟨n - 8, by omega⟩
      rw [colKinds_bright m (by omega)]
      refine ⟨{ u with bg := m, bright := 1 }, by simp [stepsK, stepK, St.color, St.hex, St.setColor, u1, u2, u5, u6], ?_⟩
      simp [brighten, St.color, St.hex, St.setColor, u2, u6, cnum, chex, show (0 : Int) ≤ (m : Int) by omega]
  | rgb r g b =>
    refine ⟨{ u with bg := (r * 65536 + g * 256 + b : Nat), bgHex := true }, ?_, ?_⟩
    · simp [colKinds, stepsK, stepK, St.color, St.setColor, St.setHex, u1, u5, u6]
    · simp [brighten, u5, cnum, chex]

theorem kinds_code (s : Style) (h1 : OkColour s.fg) (h2 : OkColour s.bg) : ∃ t, stepsK {} s.kinds = some t ∧ St.code t = s.text := by
  have hc : ∀ t : St, (brighten t).reverse = s.st.reverse → (brighten t).bold = s.st.bold → (brighten t).italic = s.st.italic →
      (brighten t).underline = s.st.underline → (brighten t).fg = cnum s.fg → (brighten t).fgHex = chex s.fg →
      (brighten t).bg = cnum s.bg → (brighten t).bgHex = chex s.bg → St.code t = s.text := by
    intro t r1 r2 r3 r4 r5 r6 r7 r8
    have : St.code t = bs "0" ++ (if (brighten t).reverse then bs ";7" else []) ++
        (if 0 < (brighten t).bold then bs ";1" else if (brighten t).bold = 0 then bs ";22" else []) ++
        (if (brighten t).italic then bs ";3" else []) ++ (if 0 < (brighten t).underline then bs ";4" else []) ++
        colorCode 30 (brighten t).fgHex (brighten t).fg ++ colorCode 40 (brighten t).bgHex (brighten t).bg := rfl
    rw [this, r1, r2, r3, r4, r5, r6, r7, r8, List.append_assoc _ (colorCode 30 _ _), attr_code, colorCode_eq 30 h1, colorCode_eq 40 h2]
    simp [Style.text, semis_append]
  unfold Style.kinds
  rw [List.append_assoc, stepsK_append, attrKinds_st, Option.bind_some]
  unfold Style.backKinds
  by_cases hb : s.bg = .default
  · rw [if_pos hb, List.append_nil]
    obtain ⟨t, ht, r1, r2, r3, r4, r5, r6, r7, r8⟩ := front_steps s h1 hb
    exact ⟨t, ht, hc t r1 r2 r3 r4 r5 r6 (by rw [r7, hb]; rfl) (by rw [r8, hb]; rfl)⟩
  · rw [if_neg hb, ← List.append_assoc, ← List.append_assoc, stepsK_append, turn_steps s h1, Option.bind_some]
    obtain ⟨t, ht, r1, r2, r3, r4, r5, r6, r7, r8⟩ :=
      back_steps { s.st with fg := cnum s.fg, fgHex := chex s.fg, onBg := true } rfl rfl rfl rfl h2
    exact ⟨t, ht, hc t r1 r2 r3 r4 r5 r6 r7 r8⟩

theorem not_raw {w : List Nat} {k : Kind} (h : kindOf w = some k) : iequal w (bs "ansi") = false ∧ iequal w (bs "sgr") = false := by
  constructor <;>
  · refine Bool.eq_false_iff.2 fun e => ?_
    have e := (beq_iff_eq (a := w.map lower)).1 e
    have e3 : (w.take 3).map lower = (w.map lower).take 3 := by rw [List.map_take]
    rw [e] at e3
    rw [kindOf_3 rfl e3, parseHex_none e3 (by decide)] at h
    revert h
    decide +revert

/-- A description is read word by word. -/
theorem parse_words {value : List Nat} {ws : List (List Nat)} {ks : List Kind} (hne : value ≠ []) (ht : Tok.tokens Utf.iter8 [32] value = ws)
    (hm : MeanAll ws ks) : parse value = (stepsK {} ks).map St.code := by
  unfold parse
  rw [if_neg hne, ht]
  cases hm with
  | nil => rfl
  | @cons w k ws ks h t =>
    simp only
    obtain ⟨r1, r2⟩ := not_raw (means_kindOf h)
    rw [r1, r2, if_neg (by simp), steps_meanAll (.cons h t)]

/-- Codes that the program makes itself: what is saved is read as the same code. -/
theorem round_style (compat : Bool) (s : Style) (h1 : OkColour s.fg) (h2 : OkColour s.bg) :
    ∃ d, format compat s.text = some d ∧ parse d = some s.text := by
  by_cases hp : compat = true → Colour.plain s.fg = true ∧ Colour.plain s.bg = true
  · have hf := format_style compat s h1 h2 hp
    obtain ⟨o1, o2⟩ := words_ok s h1 h2
    by_cases hw : s.words = []
    · refine ⟨bs "default", ?_, ?_⟩
      · unfold format
        rw [if_neg (by simp [Style.text]), tokens_text, hf, hw]
        rfl
      · have hk : s.kinds = [] := by
          have := kinds_mean s h1 h2
          rw [hw] at this
          cases h : s.kinds with
          | nil => rfl
          | cons k ks => rw [h] at this; cases this
        obtain ⟨t, ht, hc⟩ := kinds_code s h1 h2
        rw [hk] at ht
        cases ht
        rw [← hc]
        decide +kernel
    · obtain ⟨l, w, c, hl, hc1, hc2⟩ := o2 hw
      have hsp : sp s.words = (sp l ++ w) ++ [c, 32] := by
        rw [hl, sp_append]
        simp [sp]
      have hwc : WordOk (w ++ [c]) := o1 _ (by rw [hl]; simp)
      have hlo : ∀ v ∈ l, WordOk v := fun v hv => o1 v (by rw [hl]; simp [hv])
      refine ⟨sp l ++ (w ++ [c]), ?_, ?_⟩
      · unfold format
        rw [if_neg (by simp [Style.text]), tokens_text, hf, hsp]
        simp only [Option.map_some]
        rw [if_neg, show bs "default on default " = bs "default on defaul" ++ [116, 32] from rfl, stripEnd_none _ hc1,
          show bs "on default " = bs "on defaul" ++ [116, 32] from rfl, stripEnd_none _ hc1]
        · simp only [Option.getD_none]
          rw [trim_one _ hc2, List.append_assoc]
        · rintro (h | h)
          · simp at h
          · rw [show bs "default on default " = bs "default on defaul" ++ [116, 32] from rfl] at h
            have := (List.append_inj' h rfl).2
            simp at this
            exact hc1 this
      · obtain ⟨t, ht, hc⟩ := kinds_code s h1 h2
        have hw2 := words_sp hlo hwc
        rw [← hl] at hw2
        rw [parse_words (by simp) (Tok.tokens_words (by decide) hw2 (sp_ascii hlo hwc)) (kinds_mean s h1 h2), ht, Option.map_some, hc]
  · have hct : compat = true := Classical.byContradiction fun h => hp fun h' => absurd h' h
    subst hct
    refine ⟨bs "sgr " ++ s.text, ?_, parse_sgr (text_ok s)⟩
    unfold format
    rw [if_neg (by simp [Style.text]), tokens_text, format_old_style s h1 fun h => hp fun _ => h]
    rfl

end Clink.Color
