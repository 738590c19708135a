import Verif.Model.Utf
import Verif.Spec.Utf
import Verif.Proof.Utf
/-
Properties C01-C04: UTF-8 / UTF-16 iteration and conversion.
-/
namespace Clink.Utf

/-- Sample text: "Aé€😀" as code points. -/
def sample : List Nat := [0x41, 0xE9, 0x20AC, 0x1F600]

/-- C01. Encoding any NUL-free sequence of scalar values as the converter does gives
standard UTF-8, and walking those bytes with the iterator yields exactly the code points,
each step consuming exactly the bytes of its own code point (so the walk ends exactly at
the end of the bytes). -/
theorem C01_utf8_roundtrip (cs : List Nat) (h : ∀ c ∈ cs, IsText c) :
    cs.flatMap enc8 = cs.flatMap specUtf8 ∧
    cps8 (cs.flatMap enc8) = cs ∧
    pieces8 (cs.flatMap enc8) = cs.map (fun c => (c, specUtf8 c)) := by
  have e : cs.flatMap enc8 = cs.flatMap specUtf8 :=
    flatMap_congr' cs (fun c hc => enc8_eq_spec c (h c hc).2.1)
  refine ⟨e, ?_, ?_⟩
  · rw [e]; simpa [cps8_nil] using cps8_flat cs h []
  · rw [e]; clear e
    induction cs with
    | nil => simp [pieces8_nil]
    | cons c cs ih =>
      rw [List.flatMap_cons, pieces8_spec_cons c (h c (by simp)).1 (h c (by simp)).2.1,
        ih (fun x hx => h x (by simp [hx]))]
      simp

example : ∀ c ∈ sample, IsText c := by decide
example : sample.flatMap enc8 = [0x41, 0xC3, 0xA9, 0xE2, 0x82, 0xAC, 0xF0, 0x9F, 0x98, 0x80] := by decide

/-- C02 (UTF-16 side). Well-formed UTF-16 converts to the UTF-8 of the same code points
and back to the same UTF-16. -/
theorem C02_utf16_roundtrip (cs : List Nat) (h : ∀ c ∈ cs, IsText c) :
    (toUtf8 none (cs.flatMap specUtf16)).out = cs.flatMap specUtf8 ∧
    (toUtf16 none (toUtf8 none (cs.flatMap specUtf16)).out).out = cs.flatMap specUtf16 := by
  have h1 : (toUtf8 none (cs.flatMap specUtf16)).out = cs.flatMap specUtf8 := by
    rw [toUtf8_none, ← List.append_nil (cs.flatMap specUtf16), cps16_flat cs h, cps16_nil, List.append_nil]
    exact flatMap_congr' cs (fun c hc => enc8_eq_spec c (h c hc).2.1)
  refine ⟨h1, ?_⟩
  rw [h1, toUtf16_none, ← List.append_nil (cs.flatMap specUtf8), cps8_flat cs h, cps8_nil, List.append_nil]
  exact flatMap_congr' cs (fun c hc => enc16_eq_spec c (h c hc).2.1)

/-- C02 (UTF-8 side). Well-formed UTF-8 converts to the UTF-16 of the same code points
and back to the same bytes. -/
theorem C02_utf8_roundtrip (cs : List Nat) (h : ∀ c ∈ cs, IsText c) :
    (toUtf16 none (cs.flatMap specUtf8)).out = cs.flatMap specUtf16 ∧
    (toUtf8 none (toUtf16 none (cs.flatMap specUtf8)).out).out = cs.flatMap specUtf8 := by
  have h1 : (toUtf16 none (cs.flatMap specUtf8)).out = cs.flatMap specUtf16 := by
    rw [toUtf16_none, ← List.append_nil (cs.flatMap specUtf8), cps8_flat cs h, cps8_nil, List.append_nil]
    exact flatMap_congr' cs (fun c hc => enc16_eq_spec c (h c hc).2.1)
  refine ⟨h1, ?_⟩
  rw [h1]
  exact (C02_utf16_roundtrip cs h).1

/-- C02 (homomorphism). Converting well-formed text followed by anything at all is the
conversion of the first part followed by the conversion of the rest. -/
theorem C02_convert_append (cs rest : List Nat) (h : ∀ c ∈ cs, IsText c) :
    (toUtf8 none (cs.flatMap specUtf16 ++ rest)).out =
      (toUtf8 none (cs.flatMap specUtf16)).out ++ (toUtf8 none rest).out ∧
    (toUtf16 none (cs.flatMap specUtf8 ++ rest)).out =
      (toUtf16 none (cs.flatMap specUtf8)).out ++ (toUtf16 none rest).out := by
  constructor
  · have h0 := cps16_flat cs h []
    rw [List.append_nil, cps16_nil, List.append_nil] at h0
    rw [toUtf8_none, toUtf8_none, toUtf8_none, cps16_flat cs h rest, h0]; simp
  · have h0 := cps8_flat cs h []
    rw [List.append_nil, cps8_nil, List.append_nil] at h0
    rw [toUtf16_none, toUtf16_none, toUtf16_none, cps8_flat cs h rest, h0]; simp

example : (∀ c ∈ sample, IsText c) ∧
    sample.flatMap specUtf16 = [0x41, 0xE9, 0x20AC, 0xD83D, 0xDE00] := by decide

/-- C03 (UTF-8). On arbitrary bytes: a step with input left consumes a non-empty, NUL-free
piece and leaves exactly the rest; its value is below 2^21; and the pieces of a whole walk
concatenate to the input up to the first NUL. -/
theorem C03_utf8_arbitrary (l : List Nat) :
    (more l = true → ∃ p, p ≠ [] ∧ l = p ++ (next8 l).2 ∧ ∀ b ∈ p, b ≠ 0) ∧
    (more l = false → next8 l = (0, l)) ∧
    (next8 l).1 < 2 ^ 21 ∧
    (pieces8 l).flatMap (·.2) = cstr l := by
  refine ⟨fun hm => ?_, next8_zero l, next8Loop_lt 0 0 l (by decide) (by decide), pieces8_cat l⟩
  obtain ⟨p, h1, h2⟩ := next8Loop_consumed 0 0 l
  change l = p ++ (next8 l).2 at h1
  refine ⟨p, ?_, h1, h2⟩
  rintro rfl
  have := next8_shorter l hm
  rw [List.nil_append] at h1
  rw [← h1] at this; omega

/-- C03 (UTF-16). On arbitrary units a step consumes one or two units, never crosses a NUL,
and yields 0 or a genuine scalar value (never a surrogate, never above 0x10FFFF). -/
theorem C03_utf16_arbitrary (l : List Nat) (hl : ∀ u ∈ l, u < 65536) :
    (more l = true → ∃ p, (p.length = 1 ∨ p.length = 2) ∧ l = p ++ (next16 l).2 ∧ ∀ b ∈ p, b ≠ 0) ∧
    (more l = false → next16 l = (0, l)) ∧
    ((next16 l).1 = 0 ∨ IsText (next16 l).1) ∧
    (more l = true → (next16 l).1 ≠ 0) ∧
    (pieces16 l).flatMap (·.2) = cstr l := by
  refine ⟨fun hm => ?_, next16_zero l, next16_val l hl, fun hm => ?_, pieces16_cat l⟩
  · obtain ⟨p, h1, h2, h3⟩ := next16_consumed l
    refine ⟨p, ?_, h1, h2⟩
    have := next16_shorter l hm
    have e : l.length = p.length + (next16 l).2.length := by
      conv => lhs; rw [h1]
      rw [List.length_append]
    omega
  · cases l with
    | nil => simp [more] at hm
    | cons c r =>
      have hc : c ≠ 0 := by simpa [more] using hm
      have hcl := hl c (by simp)
      simp only [next16, if_neg hc]
      split
      · rename_i h1
        rw [surr_mask c hcl] at h1
        split
        · simp
        · rename_i d r'
          have hd := hl d (by simp)
          split
          · simp
          · rename_i h2
            rw [surr_mask d hd] at h2
            simp only [Nat.shiftLeft_eq]
            omega
      · split
        · simp
        · exact hc

/-- A truncated sequence, a stray continuation byte and an overlong form are all covered. -/
example : next8 [0xE2, 0x82] = (0, []) ∧ next8 [0x80, 0x41] = (0, [0x41]) ∧
    next8 [0xC3, 0xC3, 0xA9] = (0xE9, []) := by decide
example : (∀ u ∈ [0xD83D, 0x41], u < 65536) ∧ next16 [0xD83D, 0x41] = (0xfffd, [0x41]) := by decide

/-- C04 (UTF-16 to UTF-8). Into a buffer of `n` units at most `n` are written; if `n > 0`
they are the first units of the unlimited conversion followed by a NUL; a buffer with room
for the length reported by the counting call receives the whole text. -/
theorem C04_to_utf8_bounded (l : List Nat) (n : Nat) :
    (toUtf8 (some n) l).memory.length ≤ n ∧
    (0 < n → (toUtf8 (some n) l).memory = (toUtf8 none l).out.take (n - 1) ++ [0]) ∧
    ((toUtf8 none l).out.length < n → (toUtf8 (some n) l).memory = (toUtf8 none l).out ++ [0]) := by
  have hcap : (toUtf8 (some n) l).cap = some n := convLoop_cap _ _ _ _ _
  have ho := toUtf8_some n l
  rw [← toUtf8_none] at ho
  have hm : (toUtf8 (some n) l).memory =
      if 1 ≤ n then (toUtf8 none l).out.take (n - 1) ++ [0] else (toUtf8 none l).out.take (n - 1) := by
    unfold Builder.memory; rw [hcap]; simp only [ho]
  refine ⟨?_, ?_, ?_⟩
  · rw [hm]; split
    · simp only [List.length_append, List.length_take, List.length_cons, List.length_nil]; omega
    · simp only [List.length_take]; omega
  · intro h; rw [hm, if_pos (by omega)]
  · intro h; rw [hm, if_pos (by omega), List.take_of_length_le (by omega)]

/-- C04 (UTF-8 to UTF-16). -/
theorem C04_to_utf16_bounded (l : List Nat) (n : Nat) :
    (toUtf16 (some n) l).memory.length ≤ n ∧
    (0 < n → (toUtf16 (some n) l).memory = (toUtf16 none l).out.take (n - 1) ++ [0]) ∧
    ((toUtf16 none l).out.length < n → (toUtf16 (some n) l).memory = (toUtf16 none l).out ++ [0]) := by
  have hcap : (toUtf16 (some n) l).cap = some n := convLoop_cap _ _ _ _ _
  have ho := toUtf16_some n l
  rw [← toUtf16_none] at ho
  have hm : (toUtf16 (some n) l).memory =
      if 1 ≤ n then (toUtf16 none l).out.take (n - 1) ++ [0] else (toUtf16 none l).out.take (n - 1) := by
    unfold Builder.memory; rw [hcap]; simp only [ho]
  refine ⟨?_, ?_, ?_⟩
  · rw [hm]; split
    · simp only [List.length_append, List.length_take, List.length_cons, List.length_nil]; omega
    · simp only [List.length_take]; omega
  · intro h; rw [hm, if_pos (by omega)]
  · intro h; rw [hm, if_pos (by omega), List.take_of_length_le (by omega)]

/-- A cut in the middle of a surrogate pair: the buffer is still terminated and in bounds. -/
example : (toUtf16 (some 2) [0xF0, 0x9F, 0x98, 0x80]).memory = [0xD83D, 0] ∧
    (toUtf16 none [0xF0, 0x9F, 0x98, 0x80]).out = [0xD83D, 0xDE00] := by decide
example : (toUtf8 (some 3) [0x20AC]).memory = [0xE2, 0x82, 0] := by decide

end Clink.Utf
