import Verif.Proof.ColorRaw

/-! C23: descriptions of colours. -/

namespace Clink.Color

open Spec

theorem raw_iff (w : List Nat) : Raw w ↔ (iequal w (bs "ansi") || iequal w (bs "sgr")) = true := by
  unfold Raw
  rw [like_iff (by decide), like_iff (by decide), Bool.or_eq_true]
  unfold iequal
  rw [beq_iff_eq, beq_iff_eq]
  exact Or.comm

/-- What is accepted: a text without the words `sgr` and `ansi` at the beginning is accepted if and only if it is a valid
description. -/
theorem C23_accepted {value : List Nat} (ha : Ascii value) {ws : List (List Nat)} (hw : Words 32 value ws) (hr : ∀ w, ws.head? = some w → ¬ Raw w) :
    (∃ code, parse value = some code) ↔ value = [] ∨ ∃ front back on, Valid front back on ∧ MeanAll ws (sentence front back on) := by
  have ht := Tok.tokens_words (by decide) hw ha
  by_cases hne : value = []
  · subst hne
    exact ⟨fun _ => .inl rfl, fun _ => ⟨[], rfl⟩⟩
  constructor
  · rintro ⟨code, h⟩
    right
    unfold parse at h
    rw [if_neg hne, ht] at h
    cases ws with
    | nil => exact ⟨[], [], false, .front ⟨⟨by simp, by simp, by simp, by simp, by simp⟩, by simp, by simp, by simp⟩ (by simp) (by simp), .nil⟩
    | cons w ws =>
      simp only at h
      rw [if_neg (fun h => hr w rfl ((raw_iff w).2 h))] at h
      obtain ⟨s, hs, -⟩ := Option.map_eq_some_iff.1 h
      obtain ⟨ks, hk⟩ := steps_some hs
      rw [steps_meanAll hk] at hs
      obtain ⟨front, back, on, hv, rfl⟩ := valid_of_some hs
      exact ⟨front, back, on, hv, hk⟩
  · rintro (h | ⟨front, back, on, hv, hm⟩)
    · exact absurd h hne
    · rw [parse_words hne ht hm, valid_final hv]
      exact ⟨_, rfl⟩

/-- What a description means: the code is a list of numbers that sets exactly what is described, whatever was set before. -/
theorem C23_meaning {value : List Nat} (hne : value ≠ []) (ha : Ascii value) {ws : List (List Nat)} (hw : Words 32 value ws) {front back : List Kind} {on : Bool}
    (hv : Valid front back on) (hm : MeanAll ws (sentence front back on)) :
    ∃ code ns, parse value = some code ∧ Params code ns ∧ ∀ a, apply ns a = meaning front back on := by
  have ht := Tok.tokens_words (by decide) hw ha
  have ok : ∀ k ∈ front ++ back, Ok k := by
    intro k hk
    refine meanAll_ok hm k ?_
    unfold sentence
    cases on with
    | true =>
      rcases List.mem_append.1 hk with hk | hk
      · exact List.mem_append_left _ hk
      · exact List.mem_append_right _ (by simp [hk])
    | false =>
      cases hv
      simpa using hk
  refine ⟨(styleOf front back on).text, (styleOf front back on).nums, ?_, style_params _, fun a => ?_⟩
  · rw [parse_words hne ht hm, valid_final hv, Option.map_some, final_code hv ok]
  · obtain ⟨h1, h2⟩ := style_ok hv ok
    rw [apply_nums _ h1 h2]
    unfold styleOf meaning
    simp only [bold_meaning (valid_front hv).bold]

/-- The words `sgr` and `ansi`: the next word is the code. -/
theorem C23_sgr {value w : List Nat} (ha : Ascii value) {ws : List (List Nat)} (hw : Words 32 value (w :: ws)) (hr : Raw w) :
    (ws = [] → parse value = some []) ∧ (∀ code, ws = [code] → parse value = some code) ∧ (2 ≤ ws.length → parse value = none) := by
  have ht := Tok.tokens_words (by decide) hw ha
  have hne : value ≠ [] := by
    rintro rfl
    rw [show Tok.tokens Utf.iter8 [32] [] = [] from Tok.tokens_words (by decide) .nil (by intro c hc; cases hc)] at ht
    cases ht
  unfold parse
  rw [if_neg hne, ht]
  simp only
  rw [if_pos ((raw_iff w).1 hr)]
  refine ⟨fun h => by rw [h], fun code h => by rw [h], fun h => ?_⟩
  match ws with
  | [] => simp at h
  | [_] => simp at h
  | _ :: _ :: _ => rfl

/-- What is saved for a description is read as the same code. -/
theorem C23_round (compat : Bool) {value code : List Nat} (h : parse value = some code)
    (hr : ∀ w, (Tok.tokens Utf.iter8 [32] value).head? = some w → ¬ Raw w) :
    ∃ d, format compat code = some d ∧ parse d = some code := by
  by_cases hne : value = []
  · subst hne
    cases h
    exact ⟨[], rfl, rfl⟩
  unfold parse at h
  rw [if_neg hne] at h
  have key : ∀ ws, (steps {} ws).map St.code = some code → ∃ d, format compat code = some d ∧ parse d = some code := by
    intro ws h
    obtain ⟨s, hs, rfl⟩ := Option.map_eq_some_iff.1 h
    obtain ⟨ks, hk⟩ := steps_some hs
    rw [steps_meanAll hk] at hs
    obtain ⟨front, back, on, hv, rfl⟩ := valid_of_some hs
    rw [valid_final hv] at hs
    cases hs
    have ok : ∀ k ∈ front ++ back, Ok k := by
      intro k hk'
      refine meanAll_ok hk k ?_
      unfold sentence
      cases on with
      | true =>
        rcases List.mem_append.1 hk' with hk' | hk'
        · exact List.mem_append_left _ hk'
        · exact List.mem_append_right _ (by simp [hk'])
      | false =>
        cases hv
        simpa using hk'
    rw [final_code hv ok]
    obtain ⟨h1, h2⟩ := style_ok hv ok
    exact round_style compat _ h1 h2
  cases ht : Tok.tokens Utf.iter8 [32] value with
  | nil =>
    rw [ht] at h
    exact key [] h
  | cons w ws =>
    rw [ht] at h hr
    simp only at h
    rw [if_neg (fun h => hr w rfl ((raw_iff w).2 h))] at h
    exact key _ h

/-- A code that is given by its numbers: what is saved is read as a code with the same effect. -/
theorem C23_raw (compat : Bool) {code ns : List Nat} (h : Params code ns) (hn : ∀ n ∈ ns, n < 2147483648) :
    parse (bs "sgr " ++ code) = some code ∧
    ∃ d code' ns', format compat code = some d ∧ parse d = some code' ∧ Params code' ns' ∧ ∀ a, apply ns' a = apply ns a := by
  refine ⟨parse_sgr (params_wordOk h), ?_⟩
  obtain ⟨ws, w1, w2, w3, w4, w5⟩ := params_words h
  have ht := Tok.tokens_words (by decide) w1 w2
  have hd := formatLoop_defined compat 0 false [] ws (nums_defined (w5 hn))
  obtain ⟨r, hr⟩ := Option.ne_none_iff_exists'.1 hd
  cases r with
  | none =>
    refine ⟨bs "sgr " ++ code, code, ns, ?_, parse_sgr (params_wordOk h), h, fun a => rfl⟩
    unfold format
    rw [if_neg w3, ht, hr]
    rfl
  | some out =>
    rcases format_numbers hr with ⟨h1, -⟩ | ⟨ms, e, any, s, d39, d49, g1, g2, g3⟩
    · subst h1
      have := w5 hn
      cases this
      cases h
    · refine ⟨finish out, s.text, s.nums, format_finish w3 (by rw [ht]; exact hr), finish_part g2, style_params s, fun a => ?_⟩
      rw [apply_nums s g2.fg g2.bg, nums_unique (w5 hn) g1, g3 a]
      rfl

/-- Other codes are saved as they are. -/
theorem C23_other (compat : Bool) {code : List Nat} (hc : ∀ c ∈ code, 32 < c ∧ c < 128) {ws : List (List Nat)} (hw : Words 59 code ws)
    (hlen : ∀ w ∈ ws, w.length ≤ 9) {w : List Nat} (hm : w ∈ ws) (hd : ∀ n, ¬ Decimal w n) :
    format compat code = some (bs "sgr " ++ code) ∧ parse (bs "sgr " ++ code) = some code := by
  have ht := Tok.tokens_words (by decide) hw fun c h => by have := hc c h; omega
  have hne : code ≠ [] := by
    rintro rfl
    rw [show Tok.tokens Utf.iter8 [59] [] = [] from Tok.tokens_words (by decide) .nil (by intro c hc; cases hc)] at ht
    rw [← ht] at hm
    cases hm
  have hint : ∀ p ∈ ws, int p ≠ none := by
    intro p hp
    have key : ∀ (w : List Nat) (x k : Nat), x < 10 ^ k → k + w.length ≤ 9 → intLoop x w ≠ none := by
      intro w
      induction w with
      | nil => intro x k _ _; simp [intLoop]
      | cons c w ih =>
        intro x k hx hk
        rw [List.length_cons] at hk
        rw [intLoop]
        split
        · simp
        · have h1 : 10 ^ (k + 1) = 10 ^ k * 10 := Nat.pow_succ ..
          have h2 : 10 ^ (k + 1) ≤ 10 ^ 9 := Nat.pow_le_pow_right (by omega) (by omega)
          have h3 : (10 : Nat) ^ 9 = 1000000000 := by decide
          rw [if_neg (by omega)]
          exact ih _ (k + 1) (by omega) (by omega)
    exact key p 0 0 (by decide) (by have := hlen p hp; omega)
  refine ⟨?_, parse_sgr ⟨hne, hc⟩⟩
  obtain ⟨r, hr⟩ := Option.ne_none_iff_exists'.1 (formatLoop_defined compat 0 false [] ws hint)
  cases r with
  | none =>
    unfold format
    rw [if_neg hne, ht, hr]
    rfl
  | some out =>
    exfalso
    have hall : ∀ {ws : List (List Nat)} {ns : List Nat}, Nums ws ns → w ∈ ws → ∃ n : Nat, int w = some (n : Int) := by
      intro ws ns h
      induction h with
      | nil => intro h; cases h
      | @cons p ps n ns h t ih =>
        intro hq
        rcases List.mem_cons.1 hq with rfl | hq
        · exact ⟨n, h⟩
        · exact ih hq
    have hwne : ∀ {code : List Nat} {ws : List (List Nat)}, Words 59 code ws → ∀ w ∈ ws, w ≠ [] := by
      intro code ws h
      induction h with
      | nil => simp
      | sep h ih => exact ih
      | word hne hw ht h ih =>
        intro v hv
        rcases List.mem_cons.1 hv with rfl | hv
        · exact hne
        · exact ih v hv
    rcases format_numbers hr with ⟨h1, -⟩ | ⟨ms, e, any, s, d39, d49, g1, -, -⟩
    · rw [h1] at hm; cases hm
    · obtain ⟨n, hn⟩ := hall g1 hm
      exact hd n (decimal_int (hwne hw w hm) hn)

/-- The restriction of C23_raw to codes without empty parameters is needed.  The code `0;1;` switches everything off, as its last
parameter is empty; what is saved for it switches to bold. -/
theorem C23_empty_params : ∃ code d code', parse (bs "sgr 0;1;") = some code ∧ format false code = some d ∧ parse d = some code' ∧
    (∃ ns, Fields code ns ∧ apply ns {} = {}) ∧ ∃ ns, Fields code' ns ∧ apply ns {} = { bold := true } := by
  have d0 : Decimal [48] 0 := by unfold Decimal; decide
  have d1 : Decimal [49] 1 := by unfold Decimal; decide
  refine ⟨bs "0;1;", bs "bold", bs "0;1", by decide +kernel, by decide +kernel, by decide +kernel, ⟨[0, 1, 0], ?_, by decide⟩, [0, 1], ?_, by decide⟩
  · exact .more (w := [48]) (t := [49, 59]) (.inl d0) (.more (w := [49]) (t := []) (.inl d1) (.last (.inr ⟨rfl, rfl⟩)))
  · exact .more (w := [48]) (t := [49]) (.inl d0) (.last (.inl d1))

/-- Numbers that do not fit into 32 bits are computed with signed overflow. -/
theorem C23_overflow : ∃ code, parse (bs "sgr 2147483648") = some code ∧ format false code = none :=
  ⟨bs "2147483648", by decide +kernel, by decide +kernel⟩

/-- The word `bright` alone has no effect, but before `on` it makes the text white. -/
theorem C23_bright_on : parse (bs "bright") = some (bs "0") ∧ parse (bs "bright on red") = some (bs "0;37;41") ∧
    meaning [.bright] [] false = {} ∧ meaning [.bright] [.name 1] true = { fg := .basic 7, bg := .basic 1 } := by
  refine ⟨?_, ?_, ?_, ?_⟩ <;> decide +kernel

/-! ### Examples -/

/-- `bold Bri #` is refused; `Bold bright RED on #12ab0F` is accepted. -/
def sampleKinds : List Kind := [.bold true, .bright, .name 1]

example : Words 32 (bs " Bold bright  RED on #12ab0F ") [bs "Bold", bs "bright", bs "RED", bs "on", bs "#12ab0F"] :=
  .sep (.word (w := bs "Bold") (by decide) (by decide) (.inr rfl) (.sep (.word (w := bs "bright") (by decide) (by decide) (.inr rfl) (.sep (.sep
    (.word (w := bs "RED") (by decide) (by decide) (.inr rfl) (.sep (.word (w := bs "on") (by decide) (by decide) (.inr rfl) (.sep
      (.word (w := bs "#12ab0F") (by decide) (by decide) (.inr rfl) (.sep .nil)))))))))))

example : MeanAll [bs "Bold", bs "bright", bs "RED", bs "on", bs "#12ab0F"] (sentence sampleKinds [.rgb 18 171 15] true) :=
  .cons (kindOf_means (by decide +kernel)) (.cons (kindOf_means (by decide +kernel)) (.cons (kindOf_means (by decide +kernel))
    (.cons (kindOf_means (by decide +kernel)) (.cons (kindOf_means (by decide +kernel)) .nil))))

example : Valid sampleKinds [.rgb 18 171 15] true := by
  have h1 : Side [.rgb 18 171 15] := (side_snoc [] _).2 ⟨⟨by simp, by simp, by simp, by simp, by simp⟩, rfl, by simp⟩
  have h2 : Side sampleKinds := (side_snoc [.bold true, .bright] _).2 ⟨(side_snoc [.bold true] _).2 ⟨(side_snoc [] _).2
    ⟨⟨by simp, by simp, by simp, by simp, by simp⟩, trivial⟩, by decide, by decide⟩, by decide⟩
  exact .both ⟨h2, by decide, by decide, by decide⟩ ⟨h1, by decide, by decide, by decide⟩ (by decide) (by decide) (by decide)

example : parse (bs " Bold bright  RED on #12ab0F ") = some (bs "0;1;91;48;2;18;171;15") := by decide +kernel
example : format false (bs "0;1;91;48;2;18;171;15") = some (bs "bold bright red on #12AB0F") := by decide +kernel
example : format true (bs "0;1;91;48;2;18;171;15") = some (bs "sgr 0;1;91;48;2;18;171;15") := by decide +kernel
example : meaning sampleKinds [.rgb 18 171 15] true = { bold := true, fg := .basic 9, bg := .rgb 18 171 15 } := by decide

/-- Of core/test/settings.cpp. -/
example : parse (bs "bold underline on green     ") = some (bs "0;1;4;42") ∧ format false (bs "0;1;4;42") = some (bs "bold underline default on green") ∧
    parse (bs "blue on bla bri") = some (bs "0;34;100") ∧ format false (bs "0;34;100") = some (bs "blue on bright black") := by
  refine ⟨?_, ?_, ?_, ?_⟩ <;> decide +kernel

example : parse (bs "red default") = none ∧ parse (bs "bright #fff") = none ∧ parse (bs "red on bold") = none ∧ parse (bs "red blue") = none ∧
    parse (bs "on red on blue") = none := by
  refine ⟨?_, ?_, ?_, ?_, ?_⟩ <;> decide +kernel

example : Params (bs "00;31;49") [0, 31, 49] :=
  .more (w := bs "00") (t := bs "31;49") (by unfold Decimal; decide) (.more (w := bs "31") (t := bs "49") (by unfold Decimal; decide)
    (.last (by unfold Decimal; decide)))

example : format false (bs "00;31;49") = some (bs "red") ∧ parse (bs "red") = some (bs "0;31") := by
  refine ⟨?_, ?_⟩ <;> decide +kernel

example : Words 59 (bs "1;x") [bs "1", bs "x"] ∧ ∀ n, ¬ Decimal (bs "x") n :=
  ⟨Tok.words_cons (w := bs "1") (by decide) (by decide) (Tok.words_one (by decide) (by decide)), fun n h => absurd (h.2.1 120 (by decide)) (by omega)⟩

example : Raw (bs "SGR") := .inl ⟨rfl, by
  intro i x y h1 h2
  match i with
  | 0 => cases h1; cases h2; exact .inr (by decide)
  | 1 => cases h1; cases h2; exact .inr (by decide)
  | 2 => cases h1; cases h2; exact .inr (by decide)
  | i + 3 => simp [bs] at h1⟩

end Clink.Color
