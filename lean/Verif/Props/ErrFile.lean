import Verif.Model.ErrFile
import Verif.Spec.ErrFile
import Verif.Proof.ErrFile
/-
C59: the lines of the file with the exit code.
-/
namespace Clink.ErrFile
open Clink.Utf Spec

/-- A code page in which the bytes above 127 are the characters of the same number. -/
def latin1 (l : List Nat) : List Nat := l.filter fun c => c ≠ 0 ∧ c < 256

theorem latin1_page : CodePage latin1 := by
  refine ⟨?_, rfl⟩
  intro l c hc
  obtain ⟨_, h⟩ := List.mem_filter.1 hc
  have h' : c ≠ 0 ∧ c < 256 := by simpa using h
  refine ⟨by omega, by omega, by omega⟩

/-- **C59 (bytes).** A file in the code page of the system, whatever that is, without NUL and without the byte
255, with lines of at most 63 units: each call gives the next line without its end, as UTF-8, and the call
after the last line returns `false`. -/
theorem C59_bytes (chars : List Nat → List Nat) (hp : CodePage chars) (bs : List Nat)
    (hb : ∀ c ∈ bs, c ≠ 255 ∧ c ≠ 0)
    (hs : ∀ l ∈ lines bs, (utf16 (chars (chomp l))).length ≤ 63) :
    calls (fun l => utf16 (chars l)) ((lines bs).length + 1) (openFile bs) =
      some ((lines bs).map (fun l => (true, utf8 (chars (chomp l)))) ++ [(false, [])]) := by
  obtain ⟨r, bs', hst, _, hl, hc⟩ := calls8 (fun l => utf16 (chars l)) (by simp [hp.empty, utf16]) (lines bs) []
    bs (openFile bs) ⟨⟨rfl, by simp [openFile]⟩, .inr rfl, .inl rfl⟩ hb (by simp) hs
  have hbs' : bs' = [] := by
    cases h : bs' with
    | nil => rfl
    | cons c t =>
      obtain ⟨l, _, ⟨_, e⟩ | ⟨_, _, e⟩⟩ := lines_cases bs' (by simp [h]) <;> rw [hl] at e <;> simp at e
  subst hbs'
  obtain ⟨r', e⟩ := next_end (fun l => utf16 (chars l)) r hst.1.1
  rw [hc 1]
  have h2 : ∀ l, (toUtf8 none (utf16 (chars (chomp l)))).out = utf8 (chars (chomp l)) :=
    fun l => (C02_utf16_roundtrip _ (hp.text _)).1
  simp [calls, e, h2]

-- "5 " and "a<e acute>", with carriage returns; and an empty line and a line without an end.
example : (∀ c ∈ [53, 32, 13, 10, 97, 233, 13, 10, 10, 98], c ≠ 255 ∧ c ≠ 0) ∧
    (∀ l ∈ lines [53, 32, 13, 10, 97, 233, 13, 10, 10, 98], (utf16 (latin1 (chomp l))).length ≤ 63) ∧
    (lines [53, 32, 13, 10, 97, 233, 13, 10, 10, 98]).map (fun l => utf8 (latin1 (chomp l))) =
      [[53, 32], [97, 195, 169], [], [98]] := by decide +kernel

/-- **C59 (UTF-16).** A file in UTF-16 without NUL that begins with a character below U+0100 (a digit) and
holds more than this character: each call gives the next line without its end, as UTF-8, however long it
is, and the call after the last line returns `false`. -/
theorem C59_wide (acp : List Nat → List Nat) (cs : List Nat) (ht : ∀ c ∈ cs, IsText c)
    (h256 : ∀ c, cs.head? = some c → c < 256) (hone : ∀ c, cs = [c] → c = 10) :
    calls acp ((lines cs).length + 1) (openFile (bytes16 cs)) =
      some ((lines cs).map (fun l => (true, utf8 (chomp l))) ++ [(false, [])]) :=
  calls16 acp (lines cs) cs (openFile (bytes16 cs))
    ⟨⟨rfl, by simp [openFile]⟩, .inr ⟨rfl, h256, hone⟩⟩ ht rfl

-- "5", a line with U+1F600, and one without an end.
example : (∀ c ∈ [53, 13, 10, 0x1F600, 10, 98], IsText c) ∧
    (∀ c, [53, 13, 10, 0x1F600, 10, 98].head? = some c → c < 256) ∧
    bytes16 [53, 13, 10, 0x1F600, 10, 98] = [53, 0, 13, 0, 10, 0, 0x3D, 0xD8, 0x00, 0xDE, 10, 0, 98, 0] ∧
    (lines [53, 13, 10, 0x1F600, 10, 98]).map (fun l => utf8 (chomp l)) =
      [[53], [0xF0, 0x9F, 0x98, 0x80], [98]] := by
  refine ⟨by decide, ?_, by decide +kernel, by decide +kernel⟩
  intro c hc
  simp at hc
  omega

/-- **C59 (exit code).** What CMD writes for an exit code, in the code page of the system or in UTF-16, is the
number that is handed to `os::set_errorlevel`. -/
theorem C59_errorlevel (chars : List Nat → List Nat) (hp : CodePage chars)
    (hascii : ∀ l : List Nat, (∀ c ∈ l, c < 128) → (∀ c ∈ l, c ≠ 0) → chars l = l)
    (v : Int) (h1 : -2147483648 ≤ v) (h2 : v ≤ 2147483647) (k : Nat) (hk : k ≤ 50) :
    errorlevel (fun l => utf16 (chars l)) (decimal v ++ List.replicate k 32 ++ [13, 10]) = some v ∧
    ∀ acp, errorlevel acp (bytes16 (decimal v ++ List.replicate k 32 ++ [13, 10])) = some v := by
  have hmem : ∀ c ∈ decimal v ++ List.replicate k 32, 32 ≤ c ∧ c ≤ 57 := by
    intro c hc
    rcases List.mem_append.1 hc with hc | hc
    · have := decimal_ascii v c hc; omega
    · have := (List.mem_replicate.1 hc).2; omega
  have hlen : (decimal v ++ List.replicate k 32).length ≤ 61 := by
    have := decimal_length v h1 h2
    simp; omega
  have ha := atoi_decimal v k h1 h2
  have hne : decimal v ++ List.replicate k 32 ≠ [] := by
    intro h
    have hd := (List.append_eq_nil_iff.1 h).1
    have h3 := digits_ne v.natAbs
    unfold decimal at hd
    split at hd
    · simp at hd
    · exact h3 hd
  generalize decimal v ++ List.replicate k 32 = l at hmem hlen ha hne
  have e0 : l ++ [13, 10] = (l ++ [13]) ++ 10 :: [] := by simp
  have h10 : 10 ∉ l ++ [13] := by
    intro h
    rcases List.mem_append.1 h with h | h
    · have := hmem 10 h; omega
    · simp at h
  have hch : chomp (l ++ [13]) = l := by simp [chomp]
  have hu8 : utf8 l = l := utf8_ascii l (fun c hc => by have := hmem c hc; omega)
  have hu16 : utf16 l = l := by
    have : ∀ m : List Nat, (∀ c ∈ m, c ≤ 57) → utf16 m = m := by
      intro m
      induction m with
      | nil => intro _; rfl
      | cons c cs ih =>
        intro hm
        have hc := hm c (by simp)
        have hc' : c < 65536 := by omega
        have := ih (fun x hx => hm x (by simp [hx]))
        simp only [utf16, List.flatMap_cons, specUtf16, hc', if_true] at this ⊢
        rw [this]; rfl
    exact this l (fun c hc => (hmem c hc).2)
  have hlines : lines (l ++ [13, 10]) = [l ++ [13]] := by
    rw [e0, lines_line _ _ h10]; simp [lines]
  have hfirst : ∀ acp r n out tl, calls acp (n + 1) r = some ((true, out) :: tl) →
      ∃ r', next acp r = some (true, out, r') := by
    intro acp r n out tl h
    simp only [calls] at h
    cases hn : next acp r with
    | none => simp [hn] at h
    | some x =>
      obtain ⟨ok, o, r'⟩ := x
      simp only [hn] at h
      cases hcs : calls acp n r' with
      | none => simp [hcs] at h
      | some m => simp [hcs] at h; exact ⟨r', by rw [h.1.1, h.1.2]⟩
  refine ⟨?_, fun acp => ?_⟩
  · have hcl : chars l = l := hascii l (fun c hc => by have := hmem c hc; omega)
      (fun c hc => by have := hmem c hc; omega)
    have := C59_bytes chars hp (l ++ [13, 10])
      (fun c hc => by
        rcases List.mem_append.1 hc with hc | hc
        · have := hmem c hc; omega
        · simp at hc; omega)
      (fun x hx => by
        rw [hlines] at hx; simp only [List.mem_singleton] at hx
        rw [hx, hch, hcl, hu16]; omega)
    rw [hlines] at this
    simp only [List.map_cons, List.map_nil, hch, hcl, hu8, List.cons_append] at this
    obtain ⟨r', hn⟩ := hfirst _ _ _ _ _ this
    simp [errorlevel, hn, ha]
  · have := C59_wide acp (l ++ [13, 10])
      (fun c hc => by
        have : 0 < c ∧ c < 128 := by
          rcases List.mem_append.1 hc with hc | hc
          · have := hmem c hc; omega
          · simp at hc; omega
        refine ⟨this.1, by omega, by omega⟩)
      (fun c hc => by
        cases l with
        | nil => simp at hc; omega
        | cons a as => simp at hc; have := hmem a (by simp); omega)
      (fun c hc => by have := congrArg List.length hc; simp at this)
    rw [hlines] at this
    simp only [List.map_cons, List.map_nil, hch, hu8, List.cons_append] at this
    obtain ⟨r', hn⟩ := hfirst _ _ _ _ _ this
    simp [errorlevel, hn, ha]

-- The code -1073741510 (an interrupted program).
example : (decimal (-1073741510) ++ List.replicate 1 32 ++ [13, 10]) =
      [45, 49, 48, 55, 51, 55, 52, 49, 53, 49, 48, 32, 13, 10] ∧
    errorlevel (fun l => utf16 (latin1 l)) [45, 49, 48, 55, 51, 55, 52, 49, 53, 49, 48, 32, 13, 10] =
      some (-1073741510) := by decide +kernel

example : ∀ l : List Nat, (∀ c ∈ l, c < 128) → (∀ c ∈ l, c ≠ 0) → latin1 l = l := by
  intro l h1 h2
  unfold latin1
  rw [List.filter_eq_self]
  intro c hc
  have h3 := h1 c hc
  have h4 := h2 c hc
  simp
  omega

/-- **C59, violated (long lines).** In a file that is not UTF-16, after lines of at most 63 units a line of 64 or
more (but not 127) writes outside of the buffer: `reserve` is called with half of the units needed. -/
theorem C59_long_violated (chars : List Nat → List Nat) (hp : CodePage chars) (bs l : List Nat)
    (pre post : List (List Nat)) (hb : ∀ c ∈ bs, c ≠ 255 ∧ c ≠ 0) (hl : lines bs = pre ++ l :: post)
    (hs : ∀ l ∈ pre, (utf16 (chars (chomp l))).length ≤ 63)
    (h1 : 64 ≤ (utf16 (chars (chomp l))).length) (h2 : (utf16 (chars (chomp l))).length ≠ 127)
    (h3 : (utf16 (chars (chomp l))).length < 100000) :
    calls (fun l => utf16 (chars l)) (pre.length + 1) (openFile bs) = none := by
  have h0 : (fun l => utf16 (chars l)) [] = [] := by simp [hp.empty, utf16]
  obtain ⟨r, bs', hst, hb', hl', hc⟩ := calls8 (fun l => utf16 (chars l)) h0 pre (l :: post)
    bs (openFile bs) ⟨⟨rfl, by simp [openFile]⟩, .inr rfl, .inl rfl⟩ hb hl hs
  have hbs' : bs' ≠ [] := by rintro rfl; simp [lines] at hl'
  obtain ⟨l', rest, f, e1, _, _, hn⟩ := st_next (fun l => utf16 (chars l)) h0 r bs' hbs' hst hb'
  rw [hl'] at e1
  simp only [List.cons.injEq] at e1
  obtain ⟨rfl, _⟩ := e1
  rw [convert_long (fun l => utf16 (chars l)) f r.cap (chomp l) hst.2.2 h1 h2 h3] at hn
  rw [hc 1]
  simp [calls, hn]

-- "0" and then a path of 64 characters.
example : (∀ c ∈ [48, 10] ++ List.replicate 64 97, c ≠ 255 ∧ c ≠ 0) ∧
    lines ([48, 10] ++ List.replicate 64 97) = [[48]] ++ List.replicate 64 97 :: [] ∧
    (utf16 (latin1 (chomp (List.replicate 64 97)))).length = 64 := by decide +kernel

/-- **C59, violated (byte 255).** If a line after the first one begins with the byte 255 (a letter in many code
pages) then reading stops, whatever comes after it. -/
theorem C59_ff_violated (chars : List Nat → List Nat) (hp : CodePage chars) (l rest : List Nat)
    (hl : ∀ c ∈ l, c ≠ 255 ∧ c ≠ 0 ∧ c ≠ 10) (hr : ∀ c ∈ rest, c ≠ 0)
    (hs : (utf16 (chars (chomp l))).length ≤ 63) :
    2 ≤ (lines (l ++ 10 :: 255 :: rest)).length ∧
    calls (fun l => utf16 (chars l)) 2 (openFile (l ++ 10 :: 255 :: rest)) =
      some [(true, utf8 (chars (chomp l))), (false, [])] := by
  refine ⟨?_, ?_⟩
  · rw [lines_line l _ (fun h => (hl 10 h).2.2 rfl)]
    simp only [List.length_cons, lines, (by decide : ¬ (255 = 10)), if_false]
    split <;> simp
  · have h0 : (fun l => utf16 (chars l)) [] = [] := by simp [hp.empty, utf16]
    obtain ⟨f, ⟨hf1, hf2⟩, hn⟩ := step8 (fun l => utf16 (chars l)) h0 l (10 :: 255 :: rest) (255 :: rest)
      (openFile (l ++ 10 :: 255 :: rest)) hl
      (fun c hc => by
        rcases List.mem_cons.1 hc with rfl | hc
        · decide
        · exact hr c hc)
      (.inr rfl) rfl (.inr rfl) (by simp [openFile])
    obtain ⟨cap', _, hcv⟩ := convert_ok (fun l => utf16 (chars l)) f 1 (chomp l) (.inl rfl) hs
    have e2 : (toUtf8 none (utf16 (chars (chomp l)))).out = utf8 (chars (chomp l)) :=
      (C02_utf16_roundtrip _ (hp.text _)).1
    have hn' : next (fun l => utf16 (chars l)) (openFile (l ++ 10 :: 255 :: rest)) =
        some (true, utf8 (chars (chomp l)), ⟨f, some false, cap'⟩) := by
      rw [hn]; simpa [openFile, e2] using hcv
    obtain ⟨frest, feof⟩ := f
    simp only at hf1 hf2
    subst hf1
    cases feof with
    | true => exact absurd (hf2 rfl) (by simp)
    | false =>
      simp only [calls, hn']
      simp [next, body]

-- The line "abc<255>d" is given as two lines.
example : calls (fun l => utf16 (latin1 l)) 3 (openFile [48, 10, 97, 98, 99, 255, 100, 10]) =
    some [(true, [48]), (true, [97, 98, 99]), (true, [100])] := by decide +kernel

/-- **C59, violated (one character).** A file in UTF-16 with one character is read as if it were empty, and the
exit code is taken to be 0. -/
theorem C59_one_violated (acp : List Nat → List Nat) (c : Nat) (h0 : 0 < c) (h10 : c ≠ 10) (h : c < 256) :
    lines [c] = [[c]] ∧ bytes16 [c] = [c, 0] ∧
    calls acp 1 (openFile (bytes16 [c])) = some [(false, [])] ∧
    errorlevel acp (bytes16 [c]) = some 0 := by
  have h1 : c < 65536 := by omega
  have h2 : c % 256 = c := by omega
  have h3 : c / 256 = 0 := by omega
  have e : bytes16 [c] = [c, 0] := by simp [bytes16, utf16, specUtf16, h1, h2, h3]
  refine ⟨by simp [lines, h10], e, ?_, ?_⟩
  · rw [e]; simp [calls, next, openFile, h10, body]
  · rw [e]; simp [errorlevel, next, openFile, h10, body]

example : (fun c : Nat => 0 < c ∧ c ≠ 10 ∧ c < 256) 53 := by decide

end Clink.ErrFile
