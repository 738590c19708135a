import Verif.Spec.Attributes

/-! Attributes and escape sequences. -/

namespace Clink.Attributes

open Spec

theorem and_all (x : BitVec 16) : x &&& 65535#16 = x := BitVec.and_allOnes

theorem merge_fg (a b : Attr) : (merge a b).fg = if b.hasFg then b.fg else a.fg := by
  unfold merge
  cases h : b.hasFg <;> simp [and_all]

theorem merge_bg (a b : Attr) : (merge a b).bg = if b.hasBg then b.bg else a.bg := by
  unfold merge
  cases h : b.hasBg <;> simp [and_all]

theorem merge_bold (a b : Attr) : (merge a b).bold = if b.hasBold then b.bold else a.bold := by
  unfold merge
  cases h : b.hasBold <;> simp

theorem merge_underline (a b : Attr) : (merge a b).underline = if b.hasUnderline then b.underline else a.underline := by
  unfold merge
  cases h : b.hasUnderline <;> simp

theorem merge_reverse (a b : Attr) : (merge a b).reverse = if b.hasReverse then b.reverse else a.reverse := by
  unfold merge
  cases h : b.hasReverse <;> simp

theorem Attr.ext' {a b : Attr} (h1 : a.fg = b.fg) (h2 : a.bg = b.bg) (h3 : a.bold = b.bold) (h4 : a.underline = b.underline) (h5 : a.reverse = b.reverse)
    (h6 : a.hasFg = b.hasFg) (h7 : a.hasBg = b.hasBg) (h8 : a.hasBold = b.hasBold) (h9 : a.hasUnderline = b.hasUnderline) (h10 : a.hasReverse = b.hasReverse) : a = b := by
  cases a; cases b; simp_all

theorem merge_assoc (a b c : Attr) : merge (merge a b) c = merge a (merge b c) := by
  apply Attr.ext'
  · rw [merge_fg, merge_fg, merge_fg, merge_fg]
    cases hb : b.hasFg <;> cases hc : c.hasFg <;> simp [merge, hb, hc]
  · rw [merge_bg, merge_bg, merge_bg, merge_bg]
    cases hb : b.hasBg <;> cases hc : c.hasBg <;> simp [merge, hb, hc]
  · rw [merge_bold, merge_bold, merge_bold, merge_bold]
    cases hb : b.hasBold <;> cases hc : c.hasBold <;> simp [merge, hb, hc]
  · rw [merge_underline, merge_underline, merge_underline, merge_underline]
    cases hb : b.hasUnderline <;> cases hc : c.hasUnderline <;> simp [merge, hb, hc]
  · rw [merge_reverse, merge_reverse, merge_reverse, merge_reverse]
    cases hb : b.hasReverse <;> cases hc : c.hasReverse <;> simp [merge, hb, hc]
  all_goals simp [merge, Bool.or_assoc]

theorem over_merge (l : Look) (a b : Attr) : over l (merge a b) = over (over l a) b := by
  unfold over
  simp only [merge_fg, merge_bg, merge_bold, merge_underline, merge_reverse]
  simp only [merge]
  congr 1
  · by_cases hb : b.hasFg = true <;> by_cases ha : a.hasFg = true <;> simp [hb, ha]
  · by_cases hb : b.hasBg = true <;> by_cases ha : a.hasBg = true <;> simp [hb, ha]
  · by_cases hb : b.hasBold = true <;> by_cases ha : a.hasBold = true <;> simp [hb, ha]
  · by_cases hb : b.hasUnderline = true <;> by_cases ha : a.hasUnderline = true <;> simp [hb, ha]
  · by_cases hb : b.hasReverse = true <;> by_cases ha : a.hasReverse = true <;> simp [hb, ha]


theorem merge_full {a : Attr} (h : Full a) (b : Attr) : Full (merge a b) := by
  obtain ⟨h1, h2, h3, h4, h5⟩ := h
  simp [Full, merge, h1, h2, h3, h4, h5]

theorem defaults_full : Full defaults := ⟨rfl, rfl, rfl, rfl, rfl⟩

theorem merge_diff {a b : Attr} (ha : Full a) (hb : Full b) : merge a (diff a b) = b := by
  obtain ⟨h1, h2, h3, h4, h5⟩ := ha
  obtain ⟨i1, i2, i3, i4, i5⟩ := hb
  apply Attr.ext'
  · rw [merge_fg]
    simp only [diff, i1]
    by_cases h : b.fg = a.fg <;> simp [h]
  · rw [merge_bg]
    simp only [diff, i2]
    by_cases h : b.bg = a.bg <;> simp [h]
  · rw [merge_bold]
    simp only [diff, i3]
    cases a.bold <;> cases b.bold <;> rfl
  · rw [merge_underline]
    simp only [diff, i4]
    cases a.underline <;> cases b.underline <;> rfl
  · rw [merge_reverse]
    simp only [diff, i5]
    cases a.reverse <;> cases b.reverse <;> rfl
  all_goals simp [merge, h1, h2, h3, h4, h5, i1, i2, i3, i4, i5]

theorem eq_full {a b : Attr} (ha : Full a) (hb : Full b) : a.eq b = true ↔ a = b := by
  obtain ⟨h1, h2, h3, h4, h5⟩ := ha
  obtain ⟨i1, i2, i3, i4, i5⟩ := hb
  simp only [Attr.eq, h1, h2, h3, h4, h5, i1, i2, i3, i4, i5, Bool.and_self, if_true, Bool.and_eq_true, beq_iff_eq]
  constructor
  · rintro ⟨⟨⟨⟨j1, j2⟩, j3⟩, j4⟩, j5⟩
    exact Attr.ext' j1 j2 j3 j4 j5 (by simp [*]) (by simp [*]) (by simp [*]) (by simp [*]) (by simp [*])
  · rintro rfl
    simp

/-! Decoding. -/

theorem fields_ne (b : List Nat) : fields b ≠ [] := by
  cases b with
  | nil => simp [fields]
  | cons c r =>
    rw [fields]
    split
    · simp
    · split <;> simp

def valueFrom (n : Nat) (d : List Nat) : Nat := d.foldl (fun n c => n * 10 + (c - 48)) n

theorem valueFrom_ge : ∀ (d : List Nat) (n : Nat), n ≤ valueFrom n d
  | [], n => Nat.le_refl _
  | c :: d, n => by
    have := valueFrom_ge d (n * 10 + (c - 48))
    unfold valueFrom at *
    rw [List.foldl_cons]
    omega

/-- The fields with a number in front of the first one. -/
def valuesFrom (n : Nat) : List (List Nat) → List Nat
  | [] => []
  | f :: fs => valueFrom n f :: fs.map value

theorem decode_digits (max : Nat) (b rest : List Nat) (hb : ∀ c ∈ b, 48 ≤ c ∧ c ≤ 59) : ∀ (i f param : Nat) (ps : List Nat) (t : Bool),
    (∀ x ∈ valuesFrom param (fields b), x ≤ 2147483647) →
    ∃ param' ps', decodeGo max (b ++ rest) i f param ps t = decodeGo max rest i f param' ps' (t || !b.isEmpty) ∧
      (if ps'.length < max then ps' ++ [param'] else ps') = (if ps.length < max then (ps ++ valuesFrom param (fields b)).take max else ps) := by
  induction b with
  | nil =>
    intro i f param ps t _
    refine ⟨param, ps, by simp, ?_⟩
    split
    · rename_i h
      simp only [fields, valuesFrom, valueFrom, List.foldl_nil, List.map_nil]
      rw [List.take_of_length_le (by simp; omega)]
    · rfl
  | cons c b ih =>
    intro i f param ps t hx
    have hc := hb c (by simp)
    have hb' : ∀ c ∈ b, 48 ≤ c ∧ c ≤ 59 := fun c h => hb c (by simp [h])
    rw [List.cons_append, decodeGo, if_pos hc]
    by_cases h59 : c = 59
    · rw [if_pos h59]
      rw [fields, if_pos h59] at hx ⊢
      have hv : ∀ l : List (List Nat), valuesFrom 0 l = l.map value := by
        intro l
        cases l <;> rfl
      obtain ⟨param', ps', h1, h2⟩ := ih hb' i f 0 (if ps.length < max then ps ++ [param] else ps) true (by
        intro x hx'
        apply hx
        rw [hv] at hx'
        simp [valuesFrom, hx'])
      refine ⟨param', ps', by simp [h1], ?_⟩
      rw [h2, hv]
      by_cases hps : ps.length < max
      · simp only [hps, if_true]
        simp only [valuesFrom, valueFrom, List.foldl_nil]
        split
        · simp
        · rename_i h
          simp at h
          rw [List.take_append, List.take_of_length_le (by omega), show max - ps.length = 1 by omega]
          rfl
      · simp only [hps, if_false]
    · rw [if_neg h59]
      rw [fields, if_neg h59] at hx ⊢
      generalize hF : fields b = F at *
      cases F with
      | nil => exact absurd hF (fields_ne b)
      | cons g gs =>
        dsimp only at hx ⊢
        by_cases h58 : c = 58
        · rw [if_neg (by omega)]
          rw [if_pos h58] at hx ⊢
          obtain ⟨param', ps', h1, h2⟩ := ih hb' i f param ps true hx
          exact ⟨param', ps', by simp [h1], h2⟩
        · rw [if_pos (by omega)]
          rw [if_neg h58] at hx ⊢
          have e : ∀ n, valueFrom n (c :: g) = valueFrom (n * 10 + (c - 48)) g := fun n => rfl
          have hle : param * 10 + (c - 48) ≤ 2147483647 := by
            have h1 := hx (valueFrom param (c :: g)) (by simp [valuesFrom])
            have h2 := valueFrom_ge g (param * 10 + (c - 48))
            rw [e] at h1
            omega
          rw [if_neg (by omega)]
          obtain ⟨param', ps', h1, h2⟩ := ih hb' i f (param * 10 + (c - 48)) ps true (by
            intro x hx'
            apply hx
            simpa [valuesFrom, e] using hx')
          exact ⟨param', ps', by simp [h1], by rw [h2]; simp [valuesFrom, e]⟩

theorem decode_body (b : List Nat) (f : Nat) (hb : ∀ c ∈ b, 48 ≤ c ∧ c ≤ 59) (hf : 64 ≤ f) (hx : ∀ x ∈ fields b, value x ≤ 2147483647) :
    decodeCsi 32 ([27, 91] ++ b ++ [f]) = some { final := f, params := numbers b } := by
  unfold decodeCsi
  rw [if_pos (by simp)]
  have hd : ([27, 91] ++ b ++ [f]).drop 2 = b ++ [f] := by simp
  simp only [hd]
  have hpr : ((b ++ [f]).head?.any fun c => decide (60 ≤ c ∧ c ≤ 63)) = false := by
    cases b with
    | nil =>
      simp
      omega
    | cons c b =>
      have := hb c (by simp)
      simp
      omega
  rw [hpr]
  simp only [Bool.false_eq_true, if_false]
  have hv : ∀ l : List (List Nat), valuesFrom 0 l = l.map value := by
    intro l
    cases l <;> rfl
  obtain ⟨param', ps', h1, h2⟩ := decode_digits 32 b [f] hb 0 0 0 [] false (by
    rw [hv]
    intro x h
    obtain ⟨y, hy, rfl⟩ := List.mem_map.1 h
    exact hx y hy)
  rw [h1, decodeGo, if_neg (by omega), if_neg (by omega), if_pos (by omega), decodeGo]
  rw [hv] at h2
  simp only [List.length_nil, List.nil_append, Nat.zero_lt_succ, if_true] at h2
  unfold numbers
  cases b with
  | nil =>
    have : decodeGo 32 ([] ++ [f]) 0 0 0 [] false = some (0, f, []) := by
      rw [List.nil_append, decodeGo, if_neg (by omega), if_neg (by omega), if_pos (by omega), decodeGo]
      simp
    rw [this, decodeGo, if_neg (by omega), if_neg (by omega), if_pos (by omega), decodeGo] at h1
    simp at h1 ⊢
    exact h1
  | cons c b =>
    simp only [List.isEmpty_cons, Bool.not_false, Bool.or_true, Bool.true_and, decide_eq_true_eq, reduceCtorEq, if_false]
    rw [h2]

/-! Sequences. -/

theorem colour_rgb (r g b : BitVec 8) : colour (rgbValue r g b) = .rgb (r.toNat / 8) (g.toNat / 8) (b.toNat / 8) := by
  have hr := r.isLt
  have hg := g.isLt
  have hb := b.isLt
  have hv : (rgbValue r g b).toNat = 32768 + b.toNat / 8 * 1024 + g.toNat / 8 * 32 + r.toNat / 8 := by
    unfold rgbValue
    simp only [BitVec.toNat_ofNat, BitVec.toNat_ushiftRight, Nat.shiftRight_eq_div_pow]
    rw [Nat.mod_eq_of_lt (by omega)]
  unfold colour
  rw [if_neg (by
    intro h
    have := congrArg BitVec.toNat h
    rw [hv] at this
    simp at this
    omega), if_neg (by omega), hv]
  have e1 : (32768 + b.toNat / 8 * 1024 + g.toNat / 8 * 32 + r.toNat / 8) % 32 = r.toNat / 8 := by omega
  have e2 : (32768 + b.toNat / 8 * 1024 + g.toNat / 8 * 32 + r.toNat / 8) / 32 % 32 = g.toNat / 8 := by omega
  have e3 : (32768 + b.toNat / 8 * 1024 + g.toNat / 8 * 32 + r.toNat / 8) / 1024 % 32 = b.toNat / 8 := by omega
  rw [e1, e2, e3]

theorem colour_index {n : Nat} (h : n < 16) (a : Attr) : colour (a.setFg (byte n)).fg = .index n ∧ colour (a.setBg (byte n)).bg = .index n := by
  have key : ∀ n < 16, colour (if (byte n).setWidth 16 = defaultCode then 15 else (byte n).setWidth 16) = .index n := by decide
  exact ⟨key n h, key n h⟩

theorem byte_nat (n : Nat) : (byte n).toNat = n % 256 := by simp [byte]

theorem cube_level : ∀ k < 6, (cube k).toNat = level k := by decide

theorem over_fg (l : Look) (a : Attr) (v : BitVec 16) : over l { a with hasFg := true, fg := v } = { over l a with fg := colour v } := rfl

theorem over_bg (l : Look) (a : Attr) (v : BitVec 16) : over l { a with hasBg := true, bg := v } = { over l a with bg := colour v } := rfl

theorem palette_sound (p : Nat) (hp : p = 38 ∨ p = 48) (x : Nat) (a : Attr) (l : Look) : ∃ c, Palette (x % 256) c ∧ over l (indexed (p == 38) x a) = paint p c (over l a) := by
  have hpaint : ∀ (v : BitVec 16), over l (if (p == 38) = true then { a with hasFg := true, fg := v } else { a with hasBg := true, bg := v }) = paint p (colour v) (over l a) := by
    intro v
    rcases hp with rfl | rfl <;> rfl
  unfold indexed
  dsimp only
  rw [byte_nat]
  have hlt : x % 256 < 256 := Nat.mod_lt _ (by omega)
  generalize x % 256 = n at *
  by_cases h1 : n < 16
  · rw [if_pos h1]
    refine ⟨.index n, .base h1, ?_⟩
    have := hpaint (if (byte n).setWidth 16 = defaultCode then 15 else (byte n).setWidth 16)
    have e := (colour_index h1 a).1
    simp only [Attr.setFg] at e
    rw [e] at this
    exact this
  · rw [if_neg h1]
    by_cases h2 : 232 ≤ n
    · rw [if_pos h2]
      obtain ⟨k, rfl⟩ : ∃ k, n = 232 + k := ⟨n - 232, by omega⟩
      refine ⟨_, .grey (by omega), ?_⟩
      have := hpaint (rgbValue (byte (8 + (232 + k - 232) * 10)) (byte (8 + (232 + k - 232) * 10)) (byte (8 + (232 + k - 232) * 10)))
      rw [colour_rgb, byte_nat, Nat.mod_eq_of_lt (by omega)] at this
      rw [show (8 + 10 * k) = 8 + (232 + k - 232) * 10 by omega]
      exact this
    · rw [if_neg h2]
      obtain ⟨r, g, b, h3, h4, h5, h6⟩ : ∃ r g b, r < 6 ∧ g < 6 ∧ b < 6 ∧ n = 16 + 36 * r + 6 * g + b := ⟨(n - 16) / 6 / 6, (n - 16) / 6 % 6, (n - 16) % 6, by omega, by omega, by omega, by omega⟩
      have e1 : (n - 16) / 6 / 6 = r := by omega
      have e2 : (n - 16) / 6 % 6 = g := by omega
      have e3 : (n - 16) % 6 = b := by omega
      rw [e1, e2, e3]
      refine ⟨.rgb (level r / 8) (level g / 8) (level b / 8), by rw [h6]; exact .cube h3 h4 h5, ?_⟩
      have := hpaint (rgbValue (cube r) (cube g) (cube b))
      rw [colour_rgb, cube_level r h3, cube_level g h4, cube_level b h5] at this
      exact this

theorem over_defaults (l : Look) : over l defaults = {} := rfl

/-- One code in the code and in the specification. -/
theorem code_step {p : Nat} (hp : p ≠ 38 ∧ p ≠ 48) (a : Attr) (l : Look) : ∃ a', (∀ r, sgrGo (p :: r) a = sgrGo r a') ∧ Code p (over l a) (over l a') := by
  by_cases h0 : p = 0
  · exact ⟨defaults, fun r => by rw [sgrGo.eq_def]; dsimp only; rw [if_pos h0], by rw [h0, over_defaults]; exact .reset⟩
  by_cases h1 : p = 49
  · exact ⟨a.resetBg, fun r => by rw [sgrGo.eq_def]; dsimp only; rw [if_neg h0, if_pos h1], by rw [h1]; exact .defaultBg⟩
  by_cases h2 : p = 39
  · exact ⟨a.resetFg, fun r => by rw [sgrGo.eq_def]; dsimp only; rw [if_neg h0, if_neg h1, if_pos h2], by rw [h2]; exact .defaultFg⟩
  by_cases h3 : p = 1 ∨ p = 2 ∨ p = 22
  · refine ⟨a.setBold (p == 1), fun r => by rw [sgrGo.eq_def]; dsimp only; rw [if_neg h0, if_neg h1, if_neg h2, if_pos h3], ?_⟩
    rcases h3 with rfl | rfl | rfl
    · exact .bold
    · exact .dim
    · exact .nobold
  by_cases h4 : p = 4 ∨ p = 24
  · refine ⟨a.setUnderline (p == 4), fun r => by rw [sgrGo.eq_def]; dsimp only; rw [if_neg h0, if_neg h1, if_neg h2, if_neg h3, if_pos h4], ?_⟩
    rcases h4 with rfl | rfl
    · exact .underline
    · exact .nounderline
  by_cases h5 : 30 ≤ p ∧ p ≤ 37 ∨ 90 ≤ p ∧ p ≤ 97
  · refine ⟨a.setFg (byte ((p + if 90 ≤ p then 14 else 2) &&& 0x0f)), fun r => by rw [sgrGo.eq_def]; dsimp only; rw [if_neg h0, if_neg h1, if_neg h2, if_neg h3, if_neg h4, if_pos h5], ?_⟩
    have key1 : ∀ n < 8, (30 + n + if 90 ≤ 30 + n then 14 else 2) &&& 0x0f = n := by decide
    have key2 : ∀ n < 8, (90 + n + if 90 ≤ 90 + n then 14 else 2) &&& 0x0f = 8 + n := by decide
    rcases h5 with h5 | h5
    · obtain ⟨n, rfl⟩ : ∃ n, p = 30 + n := ⟨p - 30, by omega⟩
      rw [key1 n (by omega)]
      have e := (colour_index (n := n) (by omega) a).1
      have : over l (a.setFg (byte n)) = { over l a with fg := .index n } := by
        rw [← e]; rfl
      rw [this]
      exact .fg (by omega)
    · obtain ⟨n, rfl⟩ : ∃ n, p = 90 + n := ⟨p - 90, by omega⟩
      rw [key2 n (by omega)]
      have e := (colour_index (n := 8 + n) (by omega) a).1
      have : over l (a.setFg (byte (8 + n))) = { over l a with fg := .index (8 + n) } := by
        rw [← e]; rfl
      rw [this]
      exact .brightFg (by omega)
  by_cases h6 : 40 ≤ p ∧ p ≤ 47 ∨ 100 ≤ p ∧ p ≤ 107
  · refine ⟨a.setBg (byte ((p + if 100 ≤ p then 4 else 8) &&& 0x0f)), fun r => by rw [sgrGo.eq_def]; dsimp only; rw [if_neg h0, if_neg h1, if_neg h2, if_neg h3, if_neg h4, if_neg h5, if_pos h6], ?_⟩
    have key1 : ∀ n < 8, (40 + n + if 100 ≤ 40 + n then 4 else 8) &&& 0x0f = n := by decide
    have key2 : ∀ n < 8, (100 + n + if 100 ≤ 100 + n then 4 else 8) &&& 0x0f = 8 + n := by decide
    rcases h6 with h6 | h6
    · obtain ⟨n, rfl⟩ : ∃ n, p = 40 + n := ⟨p - 40, by omega⟩
      rw [key1 n (by omega)]
      have e := (colour_index (n := n) (by omega) a).2
      have : over l (a.setBg (byte n)) = { over l a with bg := .index n } := by
        rw [← e]; rfl
      rw [this]
      exact .bg (by omega)
    · obtain ⟨n, rfl⟩ : ∃ n, p = 100 + n := ⟨p - 100, by omega⟩
      rw [key2 n (by omega)]
      have e := (colour_index (n := 8 + n) (by omega) a).2
      have : over l (a.setBg (byte (8 + n))) = { over l a with bg := .index (8 + n) } := by
        rw [← e]; rfl
      rw [this]
      exact .brightBg (by omega)
  by_cases h7 : p = 7 ∨ p = 27
  · refine ⟨a.setReverse (p == 7), fun r => by rw [sgrGo.eq_def]; dsimp only; rw [if_neg h0, if_neg h1, if_neg h2, if_neg h3, if_neg h4, if_neg h5, if_neg h6, if_pos h7], ?_⟩
    rcases h7 with rfl | rfl
    · exact .reverse
    · exact .noreverse
  · refine ⟨a, fun r => by rw [sgrGo.eq_def]; dsimp only; rw [if_neg h0, if_neg h1, if_neg h2, if_neg h3, if_neg h4, if_neg h5, if_neg h6, if_neg h7, if_neg (by omega)], ?_⟩
    refine .other ?_ (by omega) (by omega) (by omega) (by omega) hp.1 hp.2
    simp
    omega

theorem ext_go {p : Nat} (hp : p = 38 ∨ p = 48) (r : List Nat) (a : Attr) : sgrGo (p :: r) a = match r with
      | [] => a
      | type :: r =>
        if type = 2 then
          match r with
          | x :: y :: z :: r => sgrGo r (if p = 38 then a.setFgRgb (byte x) (byte y) (byte z) else a.setBgRgb (byte x) (byte y) (byte z))
          | _ => a
        else if type = 5 then
          match r with
          | x :: r => sgrGo r (indexed (p == 38) x a)
          | [] => a
        else sgrGo r a := by
  conv => lhs; unfold sgrGo
  rcases hp with rfl | rfl <;> rfl

theorem rgb_step {p : Nat} (hp : p = 38 ∨ p = 48) (x y z : Nat) (a : Attr) (l : Look) :
    over l (if p = 38 then a.setFgRgb (byte x) (byte y) (byte z) else a.setBgRgb (byte x) (byte y) (byte z)) = paint p (.rgb (x % 256 / 8) (y % 256 / 8) (z % 256 / 8)) (over l a) := by
  have e := colour_rgb (byte x) (byte y) (byte z)
  rw [byte_nat, byte_nat, byte_nat] at e
  rw [← e]
  rcases hp with rfl | rfl <;> rfl

theorem sgr_go : ∀ (n : Nat) (ps : List Nat), ps.length ≤ n → ∀ (a : Attr) (l : Look), Sgr ps (over l a) (over l (sgrGo ps a))
  | n, [], _, a, l => by
    rw [sgrGo]
    exact .done
  | 0, _ :: _, h, _, _ => by simp at h
  | n + 1, p :: r, h, a, l => by
    simp only [List.length_cons] at h
    by_cases hp : p = 38 ∨ p = 48
    · rw [ext_go hp]
      match r, h with
      | [], _ => exact .cut hp (.inl rfl)
      | t :: r, h =>
        simp only [List.length_cons] at h
        dsimp only
        split
        · rename_i ht
          subst ht
          match r, h with
          | x :: y :: z :: r, h =>
            simp only [List.length_cons] at h
            dsimp only
            refine .rgb hp ?_
            rw [← rgb_step hp x y z a l]
            exact sgr_go n r (by omega) _ l
          | [], _ => exact .cut hp (.inr (.inr ⟨[], by simp, rfl⟩))
          | [x], _ => exact .cut hp (.inr (.inr ⟨[x], by simp, rfl⟩))
          | [x, y], _ => exact .cut hp (.inr (.inr ⟨[x, y], by simp, rfl⟩))
        · rename_i ht
          split
          · rename_i ht5
            subst ht5
            match r, h with
            | x :: r, h =>
              simp only [List.length_cons] at h
              dsimp only
              obtain ⟨c, h1, h2⟩ := palette_sound p hp x a l
              refine .index hp h1 ?_
              rw [← h2]
              exact sgr_go n r (by omega) _ l
            | [], _ => exact .cut hp (.inr (.inl rfl))
          · rename_i ht5
            exact .unknown hp ht ht5 (sgr_go n r (by omega) a l)
    · obtain ⟨a', h1, h2⟩ := code_step (p := p) (by omega) a l
      rw [h1]
      exact .code h2 (sgr_go n r (by omega) a' l)

/-! The meaning is unique. -/

def act (p : Nat) (l : Look) : Look :=
  if p = 0 then {} else if p = 1 then { l with bold := true } else if p = 2 ∨ p = 22 then { l with bold := false } else if p = 4 then { l with underline := true }
  else if p = 24 then { l with underline := false } else if p = 7 then { l with reverse := true } else if p = 27 then { l with reverse := false }
  else if 30 ≤ p ∧ p < 38 then { l with fg := .index (p - 30) } else if 90 ≤ p ∧ p < 98 then { l with fg := .index (p - 82) } else if p = 39 then { l with fg := .default }
  else if 40 ≤ p ∧ p < 48 then { l with bg := .index (p - 40) } else if 100 ≤ p ∧ p < 108 then { l with bg := .index (p - 92) } else if p = 49 then { l with bg := .default } else l

theorem code_act {p : Nat} {l m : Look} (h : Code p l m) : p ≠ 38 ∧ p ≠ 48 ∧ m = act p l := by
  cases h with
  | @fg n _ hn =>
    refine ⟨by omega, by omega, ?_⟩
    unfold act
    iterate 7 rw [if_neg (by omega)]
    rw [if_pos (by omega), Nat.add_sub_cancel_left]
  | @brightFg n _ hn =>
    refine ⟨by omega, by omega, ?_⟩
    unfold act
    iterate 8 rw [if_neg (by omega)]
    rw [if_pos (by omega), show 90 + n - 82 = 8 + n by omega]
  | @bg n _ hn =>
    refine ⟨by omega, by omega, ?_⟩
    unfold act
    iterate 10 rw [if_neg (by omega)]
    rw [if_pos (by omega), Nat.add_sub_cancel_left]
  | @brightBg n _ hn =>
    refine ⟨by omega, by omega, ?_⟩
    unfold act
    iterate 11 rw [if_neg (by omega)]
    rw [if_pos (by omega), show 100 + n - 92 = 8 + n by omega]
  | other h1 h2 h3 h4 h5 h6 h7 =>
    refine ⟨h6, h7, ?_⟩
    simp at h1
    unfold act
    iterate 13 rw [if_neg (by omega)]
  | _ => exact ⟨by decide, by decide, rfl⟩

def pal (n : Nat) : Colour :=
  if n < 16 then .index n
  else if n < 232 then .rgb (level ((n - 16) / 36) / 8) (level ((n - 16) / 6 % 6) / 8) (level ((n - 16) % 6) / 8)
  else .rgb ((8 + 10 * (n - 232)) / 8) ((8 + 10 * (n - 232)) / 8) ((8 + 10 * (n - 232)) / 8)

theorem palette_pal {n : Nat} {c : Colour} (h : Palette n c) : c = pal n := by
  cases h with
  | base h => rw [pal, if_pos h]
  | @cube r g b h1 h2 h3 =>
    rw [pal, if_neg (by omega), if_pos (by omega)]
    rw [show (16 + 36 * r + 6 * g + b - 16) / 36 = r by omega, show (16 + 36 * r + 6 * g + b - 16) / 6 % 6 = g by omega, show (16 + 36 * r + 6 * g + b - 16) % 6 = b by omega]
  | @grey k h =>
    rw [pal, if_neg (by omega), if_neg (by omega), Nat.add_sub_cancel_left]

theorem sgr_fun {ps : List Nat} {l m : Look} (h : Sgr ps l m) : ∀ (a : Attr) (l0 : Look), l = over l0 a → m = over l0 (sgrGo ps a) := by
  induction h with
  | done =>
    rintro a l0 rfl
    rw [sgrGo]
  | @code p r l m n h1 h2 ih =>
    rintro a l0 rfl
    obtain ⟨h3, h4, h5⟩ := code_act h1
    obtain ⟨a', h6, h7⟩ := code_step ⟨h3, h4⟩ a l0
    rw [List.singleton_append, h6]
    apply ih
    rw [h5, (code_act h7).2.2]
  | @index p x c r l n hp hc h2 ih =>
    rintro a l0 rfl
    rw [List.cons_append, ext_go hp]
    dsimp only [List.cons_append, List.nil_append]
    rw [if_neg (by decide), if_pos rfl]
    apply ih
    obtain ⟨c', h3, h4⟩ := palette_sound p hp x a l0
    rw [h4, palette_pal hc, palette_pal h3]
  | @rgb p x y z r l n hp h2 ih =>
    rintro a l0 rfl
    rw [List.cons_append, ext_go hp]
    dsimp only [List.cons_append, List.nil_append]
    rw [if_pos rfl]
    apply ih
    rw [rgb_step hp]
  | @unknown p t r l n hp h2 h5 _ ih =>
    rintro a l0 rfl
    rw [List.cons_append, ext_go hp]
    dsimp only [List.cons_append, List.nil_append]
    rw [if_neg h2, if_neg h5]
    exact ih a l0 rfl
  | @cut p r l hp hr =>
    rintro a l0 rfl
    rw [List.singleton_append, ext_go hp]
    rcases hr with rfl | rfl | ⟨s, hs, rfl⟩
    · rfl
    · rfl
    · dsimp only [List.singleton_append]
      rw [if_pos rfl]
      match s, hs with
      | [], _ => rfl
      | [_], _ => rfl
      | [_, _], _ => rfl
      | _ :: _ :: _ :: _, hs => simp at hs; omega

theorem over_empty (l : Look) : over l {} = l := rfl

theorem sgr_iff {ps : List Nat} (hps : ps ≠ []) (l m : Look) : m = over l (sgr ps) ↔ Sgr ps l m := by
  unfold sgr
  rw [if_neg hps]
  constructor
  · rintro rfl
    exact sgr_go ps.length ps (Nat.le_refl _) {} l
  · intro h
    exact sgr_fun h {} l rfl

theorem sequence_iff (b : List Nat) (l m : Look) : m = over l (sgr (numbers b)) ↔ Sequence b l m := by
  unfold Sequence
  by_cases h : numbers b = []
  · rw [h]
    simp [sgr, over_defaults]
  · rw [sgr_iff h]
    simp [h]

end Clink.Attributes
