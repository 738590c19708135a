import Verif.Model.Utf
import Verif.Spec.Utf
/- Helper lemmas about the UTF model. -/
namespace Clink.Utf

theorem and63 (v : Nat) : v &&& 0x3f = v % 64 := Nat.and_two_pow_sub_one_eq_mod v 6
theorem and31 (v : Nat) : v &&& 0x1f = v % 32 := Nat.and_two_pow_sub_one_eq_mod v 5
theorem and127 (v : Nat) : v &&& 0x7f = v % 128 := Nat.and_two_pow_sub_one_eq_mod v 7
theorem and1023 (v : Nat) : v &&& 0x3ff = v % 1024 := Nat.and_two_pow_sub_one_eq_mod v 10
theorem and15 (v : Nat) : v &&& 0x0f = v % 16 := Nat.and_two_pow_sub_one_eq_mod v 4
theorem and7 (v : Nat) : v &&& 0x07 = v % 8 := Nat.and_two_pow_sub_one_eq_mod v 3

theorem shl6_or (a y : Nat) (h : y < 64) : (a <<< 6) ||| y = a * 64 + y := by
  rw [← Nat.shiftLeft_add_eq_or_of_lt (by simpa using h), Nat.shiftLeft_eq]

theorem cont_eq (v : Nat) : ((v &&& 0x3f) ||| 0x80) % 256 = 0x80 + v % 64 := by
  rw [and63]
  have : ∀ w < 64, (w ||| 0x80) % 256 = 0x80 + w := by decide
  exact this _ (Nat.mod_lt _ (by decide))

theorem lead2_eq (v : Nat) (h : v < 32) : (((v &&& 0x1f) ||| 0xc0) ||| 0x80) % 256 = 0xC0 + v := by
  have : ∀ w < 32, (((w &&& 0x1f) ||| 0xc0) ||| 0x80) % 256 = 0xC0 + w := by decide
  exact this v h
theorem lead3_eq (v : Nat) (h : v < 16) : (((v &&& 0x1f) ||| 0xe0) ||| 0x80) % 256 = 0xE0 + v := by
  have : ∀ w < 16, (((w &&& 0x1f) ||| 0xe0) ||| 0x80) % 256 = 0xE0 + w := by decide
  exact this v h
theorem lead4_eq (v : Nat) (h : v < 16) : (((v &&& 0x1f) ||| 0xf0) ||| 0x80) % 256 = 0xF0 + v := by
  have : ∀ w < 16, (((w &&& 0x1f) ||| 0xf0) ||| 0x80) % 256 = 0xF0 + w := by decide
  exact this v h

theorem enc8_eq_spec (c : Nat) (h : c < 0x110000) : enc8 c = specUtf8 c := by
  unfold enc8 specUtf8
  by_cases h1 : c < 0x80
  · simp [h1]
  have s6 : c >>> 6 = c / 64 := Nat.shiftRight_eq_div_pow c 6
  have s12 : c >>> 12 = c / 4096 := Nat.shiftRight_eq_div_pow c 12
  have s18 : c >>> 18 = c / 262144 := Nat.shiftRight_eq_div_pow c 18
  by_cases h2 : c < 0x800
  · have e1 : ¬ (c ≥ 1 <<< 11) := by simp; omega
    have e2 : ¬ (c ≥ 1 <<< 16) := by simp; omega
    have e3 : (0xfc0 >>> (2 + 0 + 0 - 2)) % 256 = 0xc0 := by decide
    simp only [h1, h2, e1, e2, if_false, if_true, cont_eq, s6, e3]
    simpa using lead2_eq (c / 64) (by omega)
  by_cases h3 : c < 0x10000
  · have e1 : (c ≥ 1 <<< 11) := by simp; omega
    have e2 : ¬ (c ≥ 1 <<< 16) := by simp; omega
    have e3 : (0xfc0 >>> (2 + 1 + 0 - 2)) % 256 = 0xe0 := by decide
    simp only [h1, h2, h3, e1, e2, if_false, if_true, cont_eq, s6, s12, e3]
    simpa using lead3_eq (c / 4096) (by omega)
  · have e1 : (c ≥ 1 <<< 11) := by simp; omega
    have e2 : (c ≥ 1 <<< 16) := by simp; omega
    have e3 : (0xfc0 >>> (2 + 1 + 1 - 2)) % 256 = 0xf0 := by decide
    simp only [h1, h2, h3, e1, e2, if_false, if_true, cont_eq, s6, s12, s18, e3]
    simpa using lead4_eq (c / 262144) (by omega)

/-- One continuation byte seen while `el > 0`. -/
theorem loop_cont (ax el y : Nat) (rest : List Nat) (hy : y < 64) :
    next8Loop ax (el + 1) ((0x80 + y) :: rest) = next8Loop (ax * 64 + y) el rest := by
  have h : (0x80 + y) &&& 0x7f = y := by rw [and127]; omega
  rw [next8Loop, if_neg (by omega)]
  simp only [h, shl6_or _ _ hy]
  simp

theorem cont_class : ∀ y < 64, ((0x80 + y) &&& 0xc0) < 0xc0 := by decide

/-- The last continuation byte. -/
theorem loop_last (ax y : Nat) (rest : List Nat) (hy : y < 64) :
    next8Loop ax 0 ((0x80 + y) :: rest) = (ax * 64 + y, rest) := by
  have h : (0x80 + y) &&& 0x7f = y := by rw [and127]; omega
  rw [next8Loop, if_neg (by omega)]
  simp only [h, shl6_or _ _ hy]
  simp [cont_class y hy]

theorem loop_lead2 (x : Nat) (rest : List Nat) (hx : x < 32) :
    next8Loop 0 0 ((0xC0 + x) :: rest) = next8Loop x 0 rest := by
  have hb : ∀ w < 32, ¬ ((0xC0 + w) &&& 0xc0) < 0xc0 ∧ ((0xC0 + w) &&& 0x20) = 0 ∧
      (((0 <<< 6) ||| ((0xC0 + w) &&& 0x7f)) &&& (0x1f >>> 0)) = w := by decide
  obtain ⟨h1, h2, h3⟩ := hb x hx
  rw [next8Loop, if_neg (by omega)]
  simp only [h1, h2, ne_eq, not_true_eq_false, if_false, h3]

theorem loop_lead3 (x : Nat) (rest : List Nat) (hx : x < 16) :
    next8Loop 0 0 ((0xE0 + x) :: rest) = next8Loop x 1 rest := by
  have hb : ∀ w < 16, ¬ ((0xE0 + w) &&& 0xc0) < 0xc0 ∧ ((0xE0 + w) &&& 0x20) ≠ 0 ∧ ((0xE0 + w) &&& 0x10) = 0 ∧
      (((0 <<< 6) ||| ((0xE0 + w) &&& 0x7f)) &&& (0x1f >>> 1)) = w := by decide
  obtain ⟨h1, h2, h3, h4⟩ := hb x hx
  rw [next8Loop, if_neg (by omega)]
  simp only [h1, h2, h3, ne_eq, not_true_eq_false, not_false_eq_true, if_false, if_true, Nat.add_zero, h4]

theorem loop_lead4 (x : Nat) (rest : List Nat) (hx : x < 8) :
    next8Loop 0 0 ((0xF0 + x) :: rest) = next8Loop x 2 rest := by
  have hb : ∀ w < 8, ¬ ((0xF0 + w) &&& 0xc0) < 0xc0 ∧ ((0xF0 + w) &&& 0x20) ≠ 0 ∧ ((0xF0 + w) &&& 0x10) ≠ 0 ∧
      (((0 <<< 6) ||| ((0xF0 + w) &&& 0x7f)) &&& (0x1f >>> (1 + 1))) = w := by decide
  obtain ⟨h1, h2, h3, h4⟩ := hb x hx
  rw [next8Loop, if_neg (by omega)]
  simp only [h1, h2, h3, ne_eq, not_true_eq_false, not_false_eq_true, if_false, if_true, h4]

/-- Decoding undoes encoding for one code point, whatever follows. -/
theorem next8_spec (c : Nat) (h0 : 0 < c) (h : c < 0x110000) (rest : List Nat) :
    next8 (specUtf8 c ++ rest) = (c, rest) := by
  unfold next8 specUtf8
  by_cases h1 : c < 0x80
  · have hb : ∀ w < 0x80, (w &&& 0xc0) < 0xc0 ∧ ((0 <<< 6) ||| (w &&& 0x7f)) = w := by decide
    obtain ⟨a, b⟩ := hb c h1
    simp only [h1, if_true, List.cons_append, List.nil_append]
    rw [next8Loop, if_neg (by omega)]
    simp only [b, a, ne_eq, not_true_eq_false, if_false, if_true]
  by_cases h2 : c < 0x800
  · simp only [h1, h2, if_true, if_false, List.cons_append, List.nil_append]
    rw [loop_lead2 _ _ (by omega), loop_last _ _ _ (by omega)]
    congr 1; omega
  by_cases h3 : c < 0x10000
  · simp only [h1, h2, h3, if_true, if_false, List.cons_append, List.nil_append]
    rw [loop_lead3 _ _ (by omega), loop_cont _ _ _ _ (by omega), loop_last _ _ _ (by omega)]
    congr 1; omega
  · simp only [h1, h2, h3, if_false, List.cons_append, List.nil_append]
    rw [loop_lead4 _ _ (by omega), loop_cont _ _ _ _ (by omega), loop_cont _ _ _ _ (by omega),
      loop_last _ _ _ (by omega)]
    congr 1; omega

theorem specUtf8_ne_nil (c : Nat) : specUtf8 c ≠ [] := by
  unfold specUtf8; split
  · simp
  · split
    · simp
    · split <;> simp

theorem specUtf8_pos (c : Nat) (h0 : 0 < c) : ∀ b ∈ specUtf8 c, b ≠ 0 := by
  unfold specUtf8
  split
  · simp; omega
  split
  · simp
  split <;> simp

theorem specUtf8_lt (c : Nat) (h : c < 0x110000) : ∀ b ∈ specUtf8 c, b < 256 := by
  unfold specUtf8
  split
  · simp; omega
  split
  · simp; omega
  split
  · simp; omega
  · simp; omega

theorem more_of_pos {l : List Nat} (hne : l ≠ []) (hp : ∀ b ∈ l, b ≠ 0) (rest : List Nat) :
    more (l ++ rest) = true := by
  cases l with
  | nil => exact absurd rfl hne
  | cons a t => simpa [more] using hp a (by simp)

theorem cps8_spec_cons (c : Nat) (h0 : 0 < c) (h : c < 0x110000) (rest : List Nat) :
    cps8 (specUtf8 c ++ rest) = c :: cps8 rest := by
  rw [cps8, dif_pos (more_of_pos (specUtf8_ne_nil c) (specUtf8_pos c h0) rest)]
  simp only [next8_spec c h0 h rest]
  rw [if_neg (by omega)]

/-! UTF-16 -/

theorem enc16_eq_spec (c : Nat) (h : c < 0x110000) : enc16 c = specUtf16 c := by
  unfold enc16 specUtf16
  by_cases h1 : c < 0x10000
  · rw [if_neg (by omega), if_pos h1]
  · rw [if_pos (by omega), if_neg h1, and1023, Nat.shiftRight_eq_div_pow]
    simp only [List.cons.injEq, and_true]
    constructor <;> omega

theorem surr_mask (u : Nat) (hu : u < 65536) : u &&& 0xfc00 = u / 1024 * 1024 := by
  have : u &&& 0xfc00 = ((u >>> 10) &&& 0x3f) <<< 10 := by
    apply Nat.eq_of_testBit_eq
    intro i
    rw [Nat.testBit_and, Nat.testBit_shiftLeft, Nat.testBit_and, Nat.testBit_shiftRight]
    rw [show (0xfc00 : Nat) = 0x3f <<< 10 from by decide, Nat.testBit_shiftLeft]
    by_cases hi : i ≥ 10
    · simp only [hi, decide_true, Bool.true_and]
      congr 2; omega
    · simp [hi]
  rw [this, and63, Nat.shiftLeft_eq, Nat.shiftRight_eq_div_pow]
  omega

theorem next16_spec (c : Nat) (h : IsText c) (rest : List Nat) :
    next16 (specUtf16 c ++ rest) = (c, rest) := by
  obtain ⟨h0, h1, h2⟩ := h
  unfold specUtf16
  by_cases h3 : c < 0x10000
  · rw [if_pos h3]
    simp only [List.cons_append, List.nil_append, next16]
    rw [if_neg (by omega), surr_mask c (by omega), if_neg (by omega), if_neg (by omega)]
  · rw [if_neg h3]
    simp only [List.cons_append, List.nil_append, next16]
    rw [if_neg (by omega), surr_mask _ (by omega), if_pos (by omega)]
    rw [if_neg (by rw [surr_mask _ (by omega)]; omega), Nat.shiftLeft_eq]
    refine Prod.ext ?_ rfl
    show (0xD800 + (c - 0x10000) / 1024) * 1024 + (0xDC00 + (c - 0x10000) % 1024) - 0x35fdc00 = c
    omega

theorem specUtf16_ne_nil (c : Nat) : specUtf16 c ≠ [] := by
  unfold specUtf16; split <;> simp

theorem specUtf16_pos (c : Nat) (h0 : 0 < c) : ∀ b ∈ specUtf16 c, b ≠ 0 := by
  unfold specUtf16
  split
  · simp; omega
  · simp

theorem specUtf16_lt (c : Nat) (h : c < 0x110000) : ∀ b ∈ specUtf16 c, b < 65536 := by
  unfold specUtf16
  split
  · simp; omega
  · simp; omega

theorem cps16_spec_cons (c : Nat) (h : IsText c) (rest : List Nat) :
    cps16 (specUtf16 c ++ rest) = c :: cps16 rest := by
  rw [cps16, dif_pos (more_of_pos (specUtf16_ne_nil c) (specUtf16_pos c h.1) rest)]
  simp only [next16_spec c h rest]
  rw [if_neg (by have := h.1; omega)]

theorem cps8_nil : cps8 [] = [] := by rw [cps8]; simp [more]
theorem cps16_nil : cps16 [] = [] := by rw [cps16]; simp [more]

theorem cps8_flat (cs : List Nat) (h : ∀ c ∈ cs, IsText c) (rest : List Nat) :
    cps8 (cs.flatMap specUtf8 ++ rest) = cs ++ cps8 rest := by
  induction cs with
  | nil => simp
  | cons c cs ih =>
    have hc := h c (by simp)
    rw [List.flatMap_cons, List.append_assoc, cps8_spec_cons c hc.1 hc.2.1,
      ih (fun x hx => h x (by simp [hx]))]
    simp

theorem cps16_flat (cs : List Nat) (h : ∀ c ∈ cs, IsText c) (rest : List Nat) :
    cps16 (cs.flatMap specUtf16 ++ rest) = cs ++ cps16 rest := by
  induction cs with
  | nil => simp
  | cons c cs ih =>
    have hc := h c (by simp)
    rw [List.flatMap_cons, List.append_assoc, cps16_spec_cons c hc,
      ih (fun x hx => h x (by simp [hx]))]
    simp

/-! The conversion loop in terms of the code point list -/

/-- Generic code point list of a source iterator. -/
def cpsG (next : List Nat → Nat × List Nat) : Nat → List Nat → List Nat
  | 0, _ => []
  | n + 1, l => if (next l).1 = 0 then [] else (next l).1 :: cpsG next n (next l).2

theorem next8_zero (l : List Nat) (h : more l = false) : next8 l = (0, l) := by
  cases l with
  | nil => rfl
  | cons c r =>
    have : c = 0 := by simpa [more] using h
    subst this; rfl
theorem next16_zero (l : List Nat) (h : more l = false) : next16 l = (0, l) := by
  cases l with
  | nil => rfl
  | cons c r =>
    have : c = 0 := by simpa [more] using h
    subst this; rfl

theorem cpsG_eq_cps8 (n : Nat) (l : List Nat) (h : l.length < n) : cpsG next8 n l = cps8 l := by
  induction n generalizing l with
  | zero => omega
  | succ n ih =>
    rw [cpsG, cps8]
    by_cases hm : more l = true
    · rw [dif_pos hm]
      have := next8_shorter l hm
      simp only
      rw [ih _ (by omega)]
    · rw [dif_neg hm]
      rw [next8_zero l (by simpa using hm)]; simp

theorem cpsG_eq_cps16 (n : Nat) (l : List Nat) (h : l.length < n) : cpsG next16 n l = cps16 l := by
  induction n generalizing l with
  | zero => omega
  | succ n ih =>
    rw [cpsG, cps16]
    by_cases hm : more l = true
    · rw [dif_pos hm]
      have := next16_shorter l hm
      simp only
      rw [ih _ (by omega)]
    · rw [dif_neg hm]
      rw [next16_zero l (by simpa using hm)]; simp

theorem put_cap (b : Builder) (u : Nat) : (b.put u).cap = b.cap := by
  unfold Builder.put; split
  · simp_all
  · split <;> simp_all

theorem puts_cap (b : Builder) (us : List Nat) : (b.puts us).cap = b.cap := by
  unfold Builder.puts
  induction us generalizing b with
  | nil => rfl
  | cons u us ih => simp only [List.foldl_cons]; rw [ih, put_cap]

theorem puts_none (b : Builder) (us : List Nat) (h : b.cap = none) :
    (b.puts us).out = b.out ++ us := by
  unfold Builder.puts
  induction us generalizing b with
  | nil => simp
  | cons u us ih =>
    simp only [List.foldl_cons]
    rw [ih _ (by rw [put_cap]; exact h)]
    simp [Builder.put, h]

/-- With a buffer of `n` units, putting appends the longest prefix that leaves room
for the terminator. -/
theorem puts_some (b : Builder) (us : List Nat) (n : Nat) (h : b.cap = some n) :
    (b.puts us).out = b.out ++ us.take (n - 1 - b.out.length) := by
  unfold Builder.puts
  induction us generalizing b with
  | nil => simp
  | cons u us ih =>
    simp only [List.foldl_cons]
    rw [ih _ (by rw [put_cap]; exact h)]
    by_cases hlt : b.out.length + 1 < n
    · have e : n - 1 - b.out.length = (n - 1 - (b.out.length + 1)) + 1 := by omega
      simp [Builder.put, h, hlt, e]
    · have e : n - 1 - b.out.length = 0 := by omega
      simp [Builder.put, h, hlt, e]

theorem convLoop_cap (next) (enc) (n : Nat) (b : Builder) (l : List Nat) :
    (convLoop next enc n b l).cap = b.cap := by
  induction n generalizing b l with
  | zero => rfl
  | succ n ih =>
    rw [convLoop]
    split
    · rfl
    · simp only
      split
      · rfl
      · rw [ih, puts_cap]

theorem convLoop_none (next) (enc) (n : Nat) (b : Builder) (l : List Nat) (h : b.cap = none) :
    (convLoop next enc n b l).out = b.out ++ (cpsG next n l).flatMap enc := by
  induction n generalizing b l with
  | zero => simp [convLoop, cpsG]
  | succ n ih =>
    rw [convLoop, cpsG]
    have ht : b.truncated = false := by simp [Builder.truncated, h]
    simp only [ht, Bool.false_eq_true, if_false]
    split
    · simp
    · rw [ih _ _ (by rw [puts_cap]; exact h), puts_none _ _ h]
      simp

theorem convLoop_some (next) (enc) (n : Nat) (b : Builder) (l : List Nat) (k : Nat)
    (h : b.cap = some k) :
    (convLoop next enc n b l).out = b.out ++ ((cpsG next n l).flatMap enc).take (k - 1 - b.out.length) := by
  induction n generalizing b l with
  | zero => simp [convLoop, cpsG]
  | succ n ih =>
    rw [convLoop, cpsG]
    by_cases ht : b.truncated = true
    · have : k - 1 - b.out.length = 0 := by
        simp [Builder.truncated, h] at ht; omega
      simp [ht, this]
    · rw [if_neg ht]
      · simp only
        split
        · simp
        · rw [ih _ _ (by rw [puts_cap]; exact h), puts_some _ _ _ h]
          rw [List.flatMap_cons, List.take_append, List.append_assoc]
          congr 2
          congr 1
          simp only [List.length_append, List.length_take]
          omega

/-! Arbitrary bytes -/

theorem or_lt_of_lt {a b n : Nat} (ha : a < 2 ^ n) (hb : b < 2 ^ n) : a ||| b < 2 ^ n :=
  Nat.or_lt_two_pow ha hb

theorem step_bound (ax c k : Nat) (h : ax < 2 ^ k) (hk : 1 ≤ k) :
    ((ax <<< 6) ||| (c &&& 0x7f)) < 2 ^ (k + 6) := by
  apply or_lt_of_lt
  · rw [Nat.shiftLeft_eq, Nat.pow_add]
    exact Nat.mul_lt_mul_of_pos_right h (by decide)
  · rw [and127]
    have : c % 128 < 2 ^ 7 := Nat.mod_lt _ (by decide)
    exact Nat.lt_of_lt_of_le this (Nat.pow_le_pow_right (by decide) (by omega))

/-- The accumulator invariant: with `el` unconditional bytes still to come, the value
has at most `15 - 6 * el` bits. -/
theorem next8Loop_lt (ax el : Nat) (l : List Nat) (hel : el ≤ 2) (h : ax < 2 ^ (15 - 6 * el)) :
    (next8Loop ax el l).1 < 2 ^ 21 := by
  fun_induction next8Loop ax el l with
  | case1 => decide
  | case2 => simp
  | case3 ax el c rest hc _ hel' ih =>
    apply ih (by omega)
    have := step_bound ax c (15 - 6 * el) h (by omega)
    rw [show 15 - 6 * (el - 1) = 15 - 6 * el + 6 by omega]
    exact this
  | case4 ax el c rest hc _ hel' hlt =>
    have hel0 : el = 0 := by omega
    subst hel0
    exact step_bound ax c 15 h (by omega)
  | case5 ax el c rest hc ax' hel' hlt el' ih =>
    have he : el' = 0 ∨ el' = 1 ∨ el' = 2 := by
      have : el' = (if c &&& 0x20 ≠ 0 then 1 + (if c &&& 0x10 ≠ 0 then 1 else 0) else 0) := rfl
      rw [this]
      split
      · split <;> omega
      · omega
    apply ih
    · omega
    · apply Nat.lt_of_le_of_lt Nat.and_le_right
      rcases he with he | he | he <;> rw [he] <;> decide

/-- Each step leaves a suffix of the input. -/
theorem next8Loop_suffix (ax el : Nat) (l : List Nat) : (next8Loop ax el l).2 <:+ l := by
  fun_induction next8Loop ax el l with
  | case1 => exact List.suffix_refl _
  | case2 => exact List.suffix_refl _
  | case3 ax el c rest hc _ _ ih => exact List.IsSuffix.trans ih (List.suffix_cons c rest)
  | case4 => exact List.suffix_cons _ _
  | case5 ax el c rest hc _ _ _ _ ih => exact List.IsSuffix.trans ih (List.suffix_cons c rest)

theorem next16_suffix (l : List Nat) : (next16 l).2 <:+ l := by
  unfold next16
  split
  · exact List.suffix_refl _
  · split
    · exact List.suffix_refl _
    · split
      · split
        · exact List.suffix_cons _ _
        · split
          · exact List.suffix_cons _ _
          · exact List.IsSuffix.trans (List.suffix_cons _ _) (List.suffix_cons _ _)
      · split <;> exact List.suffix_cons _ _

/-- A step never crosses a NUL: the consumed part is NUL free. -/
theorem next8Loop_consumed (ax el : Nat) (l : List Nat) :
    ∃ p, l = p ++ (next8Loop ax el l).2 ∧ ∀ b ∈ p, b ≠ 0 := by
  fun_induction next8Loop ax el l with
  | case1 => exact ⟨[], by simp⟩
  | case2 => exact ⟨[], by simp⟩
  | case3 ax el c rest hc _ _ ih =>
    obtain ⟨p, h1, h2⟩ := ih
    exact ⟨c :: p, by rw [List.cons_append, ← h1], by simpa using ⟨hc, h2⟩⟩
  | case4 ax el c rest hc => exact ⟨[c], by simp, by simpa using hc⟩
  | case5 ax el c rest hc _ _ _ _ ih =>
    obtain ⟨p, h1, h2⟩ := ih
    exact ⟨c :: p, by rw [List.cons_append, ← h1], by simpa using ⟨hc, h2⟩⟩

theorem next16_consumed (l : List Nat) :
    ∃ p, l = p ++ (next16 l).2 ∧ (∀ b ∈ p, b ≠ 0) ∧ p.length ≤ 2 := by
  unfold next16
  split
  · exact ⟨[], by simp⟩
  · rename_i c rest
    split
    · exact ⟨[], by simp⟩
    · split
      · split
        · exact ⟨[c], by simp_all⟩
        · rename_i d rest'
          split
          · exact ⟨[c], by simp_all⟩
          · exact ⟨[c, d], by simp_all⟩
      · split <;> exact ⟨[c], by simp_all⟩

theorem pieces8_cat (l : List Nat) : (pieces8 l).flatMap (·.2) = cstr l := by
  fun_induction pieces8 l with
  | case1 l h hlt ih =>
    obtain ⟨p, h1, h2⟩ := next8Loop_consumed 0 0 l
    change l = p ++ (next8 l).2 at h1
    rw [List.flatMap_cons, ih]
    simp only
    have : l.take (l.length - (next8 l).2.length) = p := by
      conv => lhs; rw [h1]
      have : (next8 (p ++ (next8 l).2)).2 = (next8 l).2 := by rw [← h1]
      rw [List.length_append, this]; simp
    rw [this]
    conv => rhs; rw [h1]
    unfold cstr
    rw [List.takeWhile_append_of_pos (by simpa using h2)]
  | case2 l h =>
    unfold cstr
    cases l with
    | nil => rfl
    | cons c r =>
      have : c = 0 := by simpa [more] using h
      subst this; rfl

theorem pieces16_cat (l : List Nat) : (pieces16 l).flatMap (·.2) = cstr l := by
  fun_induction pieces16 l with
  | case1 l h hlt ih =>
    obtain ⟨p, h1, h2, -⟩ := next16_consumed l
    rw [List.flatMap_cons, ih]
    simp only
    have : l.take (l.length - (next16 l).2.length) = p := by
      conv => lhs; rw [h1]
      have : (next16 (p ++ (next16 l).2)).2 = (next16 l).2 := by rw [← h1]
      rw [List.length_append, this]; simp
    rw [this]
    conv => rhs; rw [h1]
    unfold cstr
    rw [List.takeWhile_append_of_pos (by simpa using h2)]
  | case2 l h =>
    unfold cstr
    cases l with
    | nil => rfl
    | cons c r =>
      have : c = 0 := by simpa [more] using h
      subst this; rfl

theorem next16_val (l : List Nat) (hl : ∀ u ∈ l, u < 65536) :
    (next16 l).1 = 0 ∨ IsText (next16 l).1 := by
  unfold next16
  split
  · left; rfl
  · rename_i c rest
    have hc := hl c (by simp)
    split
    · left; rfl
    · rw [surr_mask c hc]
      split
      · split
        · right; exact (by decide : IsText 0xfffd)
        · rename_i d rest'
          have hd := hl d (by simp)
          split
          · right; exact (by decide : IsText 0xfffd)
          · rename_i h1 h2
            rw [surr_mask d hd] at h2
            right
            unfold IsText
            simp only [Nat.shiftLeft_eq]
            omega
      · split
        · right; exact (by decide : IsText 0xfffd)
        · right; unfold IsText; simp only; omega

theorem convLoop_fuel8 (enc) (b : Builder) (l : List Nat) (n m : Nat) (hn : l.length < n) (hm : l.length < m) :
    convLoop next8 enc n b l = convLoop next8 enc m b l := by
  rcases hb : b.cap with _ | k
  · have h1 := convLoop_none next8 enc n b l hb
    have h2 := convLoop_none next8 enc m b l hb
    rw [cpsG_eq_cps8 _ _ hn] at h1
    rw [cpsG_eq_cps8 _ _ hm, ← h1] at h2
    have h3 := convLoop_cap next8 enc n b l
    have h4 := convLoop_cap next8 enc m b l
    rw [← h3] at h4
    cases hx : convLoop next8 enc n b l
    cases hy : convLoop next8 enc m b l
    simp_all
  · have h1 := convLoop_some next8 enc n b l k hb
    have h2 := convLoop_some next8 enc m b l k hb
    rw [cpsG_eq_cps8 _ _ hn] at h1
    rw [cpsG_eq_cps8 _ _ hm, ← h1] at h2
    have h3 := convLoop_cap next8 enc n b l
    have h4 := convLoop_cap next8 enc m b l
    rw [← h3] at h4
    cases hx : convLoop next8 enc n b l
    cases hy : convLoop next8 enc m b l
    simp_all

theorem pieces8_nil : pieces8 [] = [] := by rw [pieces8]; simp [more]
theorem pieces16_nil : pieces16 [] = [] := by rw [pieces16]; simp [more]

theorem pieces8_spec_cons (c : Nat) (h0 : 0 < c) (h : c < 0x110000) (rest : List Nat) :
    pieces8 (specUtf8 c ++ rest) = (c, specUtf8 c) :: pieces8 rest := by
  rw [pieces8, dif_pos (more_of_pos (specUtf8_ne_nil c) (specUtf8_pos c h0) rest)]
  simp only [next8_spec c h0 h rest]
  simp

theorem pieces16_spec_cons (c : Nat) (h : IsText c) (rest : List Nat) :
    pieces16 (specUtf16 c ++ rest) = (c, specUtf16 c) :: pieces16 rest := by
  rw [pieces16, dif_pos (more_of_pos (specUtf16_ne_nil c) (specUtf16_pos c h.1) rest)]
  simp only [next16_spec c h rest]
  simp

theorem flatMap_congr' {f g : Nat → List Nat} (cs : List Nat) (h : ∀ c ∈ cs, f c = g c) :
    cs.flatMap f = cs.flatMap g := by
  induction cs with
  | nil => rfl
  | cons c cs ih =>
    rw [List.flatMap_cons, List.flatMap_cons, h c (by simp), ih (fun x hx => h x (by simp [hx]))]

theorem toUtf8_none (l : List Nat) : (toUtf8 none l).out = (cps16 l).flatMap enc8 := by
  unfold toUtf8
  rw [convLoop_none _ _ _ _ _ rfl, cpsG_eq_cps16 _ _ (by omega)]; simp
theorem toUtf16_none (l : List Nat) : (toUtf16 none l).out = (cps8 l).flatMap enc16 := by
  unfold toUtf16
  rw [convLoop_none _ _ _ _ _ rfl, cpsG_eq_cps8 _ _ (by omega)]; simp
theorem toUtf8_some (n : Nat) (l : List Nat) :
    (toUtf8 (some n) l).out = ((cps16 l).flatMap enc8).take (n - 1) := by
  unfold toUtf8
  rw [convLoop_some _ _ _ _ _ n rfl, cpsG_eq_cps16 _ _ (by omega)]; simp
theorem toUtf16_some (n : Nat) (l : List Nat) :
    (toUtf16 (some n) l).out = ((cps8 l).flatMap enc16).take (n - 1) := by
  unfold toUtf16
  rw [convLoop_some _ _ _ _ _ n rfl, cpsG_eq_cps8 _ _ (by omega)]; simp

end Clink.Utf

namespace Clink.Utf
theorem cps16_text (l : List Nat) (hl : ∀ u ∈ l, u < 65536) : ∀ c ∈ cps16 l, IsText c := by
  fun_induction cps16 l with
  | case1 l h hlt h0 => simp
  | case2 l h hlt h0 ih =>
    intro c hc
    rcases List.mem_cons.1 hc with rfl | hc
    · rcases next16_val l hl with h | h
      · exact absurd h h0
      · exact h
    · exact ih (fun u hu => hl u ((next16_suffix l).subset hu)) c hc
  | case3 => simp
end Clink.Utf
