import Verif.Proof.HistFile

/-! C30, C36: reading history files. -/

namespace Clink.Hist

open Spec

/-- Reading a file whose lines are terminated terminates, and gives the visible lines in the order of the file, with their
offsets and timestamps, whatever the buffer holds at first. -/
theorem C30_read (junk file removals : List Nat) (hlen : file.length ≤ 2 ^ 29 - 1) (hc : Complete file) (hf : Fits junk.length file) :
    ∃ es, readLines junk file removals = some es ∧
      es.map (fun e => (e.offset, e.text, e.stamp.text, e.stamp.offset)) = stamped removals ([], none) (linesOf file) ∧
      es.map (fun e => (e.offset, e.text)) = visible removals (linesOf file) := by
  obtain ⟨es, b, h1, h2⟩ := readLines_spec junk file removals hlen hf
  rw [lines_complete 0 [] hc (fun _ => rfl) b] at h2
  refine ⟨es, h1, h2, ?_⟩
  rw [← stamped_visible removals ([], none), linesOf, ← h2, List.map_map]
  rfl

/-- Two buffers give the same lines. -/
theorem C30_buffers (junk junk' file removals : List Nat) (hlen : file.length ≤ 2 ^ 29 - 1) (hc : Complete file)
    (hf : Fits junk.length file) (hf' : Fits junk'.length file) : readLines junk file removals = readLines junk' file removals := by
  obtain ⟨es, h1, h2, -⟩ := C30_read junk file removals hlen hc hf
  obtain ⟨es', h1', h2', -⟩ := C30_read junk' file removals hlen hc hf'
  rw [h1, h1']
  have hinj : ∀ x y : Entry, (x.offset, x.text, x.stamp.text, x.stamp.offset) = (y.offset, y.text, y.stamp.text, y.stamp.offset) → x = y := by
    rintro ⟨a, b, c, d⟩ ⟨a', b', c', d'⟩ h
    simp at h
    obtain ⟨rfl, rfl, rfl, rfl⟩ := h; rfl
  have := h2.trans h2'.symm
  rw [List.map_inj_right hinj] at this
  rw [this]

/-- What `linesOf` is: its lines are the non-empty pieces without breaks that are between a break, or the start of the file,
and a break. -/
theorem C30_lines (file : List Nat) (o : Nat) (w : List Nat) : (o, w) ∈ linesOf file ↔
    w ≠ [] ∧ (∀ c ∈ w, ¬ IsBreak c) ∧ ∃ pre b post, file = pre ++ w ++ b :: post ∧ IsBreak b ∧ o = pre.length ∧
      (∀ c, pre.getLast? = some c → IsBreak c) := by
  have := mem_lines file 0 [] (by simp) (by simp) (o, w)
  simpa [linesOf] using this

/-- They are in the order of the file, without overlap: no line is there twice. -/
theorem C30_sorted (file : List Nat) : (linesOf file).Pairwise (fun x y => x.1 + x.2.length < y.1) :=
  (lines_sorted false file 0 [] (by simp)).1

/-- `|CTAG_1`, `a`, `|x`, `|` tab `time=5`, `bc`. -/
def sample : List Nat := [124, 67, 84, 65, 71, 95, 49, 10, 97, 10, 124, 120, 13, 10, 124, 9, 116, 105, 109, 101, 61, 53, 10, 98, 99, 10]

example : Complete sample ∧ linesOf sample = [(0, [124, 67, 84, 65, 71, 95, 49]), (8, [97]), (10, [124, 120]), (14, [124, 9, 116, 105, 109, 101, 61, 53]), (23, [98, 99])] := by
  refine ⟨?_, by decide +kernel⟩
  intro c h
  simp [sample] at h
  simp [IsBreak, ← h]

theorem fits_of_lines {n : Nat} {file : List Nat} (h : ∀ k, k + n ≤ file.length → ∃ c ∈ (file.drop k).take n, IsBreak c) (hn : 0 < n) : Fits n file := by
  rintro w ⟨u, v, rfl⟩ hw
  apply Nat.lt_of_not_le
  intro hlt
  obtain ⟨c, hc, hb⟩ := h u.length (by simp; omega)
  simp only [List.append_assoc, List.drop_left] at hc
  rw [List.take_append_of_le_length (by omega)] at hc
  exact hw c (List.mem_of_mem_take hc) hb

example : Fits 9 sample := by
  apply fits_of_lines _ (by decide)
  intro k hk
  have : k ≤ 17 := by simp [sample] at hk; omega
  have : ∀ k ≤ 17, ∃ c ∈ (sample.drop k).take 9, IsBreak c := by decide +kernel
  exact this k ‹_›

/-- With a buffer of 9 bytes, and with one of 100. -/
example : readLines (List.replicate 9 0) sample [] = some [⟨8, [97], {}⟩, ⟨23, [98, 99], ⟨[53], some 14⟩⟩] ∧
    readLines (List.replicate 100 7) sample [] = readLines (List.replicate 9 0) sample [] ∧
    readLines (List.replicate 9 0) sample [8] = some [⟨23, [98, 99], ⟨[53], some 14⟩⟩] := by decide +kernel

/-! What happens if the conditions do not hold. -/

/-- A line at the end that is not terminated is found or not, depending on the buffer: `ab`, `cde` without a terminator. -/
theorem C30_unterminated : readLines (List.replicate 4 0) [97, 98, 10, 99, 100, 101] [] = some [⟨0, [97, 98], {}⟩, ⟨3, [99, 100, 101], {}⟩] ∧
    readLines (List.replicate 8 0) [97, 98, 10, 99, 100, 101] [] = some [⟨0, [97, 98], {}⟩] := by decide +kernel

/-- A line that does not fit is divided: `abcde` with a buffer of four bytes. -/
theorem C30_divided : readLines (List.replicate 4 0) [97, 98, 99, 100, 101, 10] [] = some [⟨0, [97, 98, 99, 100], {}⟩, ⟨4, [101], {}⟩] := by decide +kernel

/-- A first line that starts with `|` and fills the buffer hides the part of a line behind it: `|abc`, `de`, `fg` with a
buffer of four bytes.  The line `de` is not found. -/
theorem C30_hidden : readLines (List.replicate 4 0) [124, 97, 98, 99, 10, 100, 101, 10, 102, 103, 10] [] = some [⟨8, [102, 103], {}⟩] ∧
    readLines (List.replicate 8 0) [124, 97, 98, 99, 10, 100, 101, 10, 102, 103, 10] [] = some [⟨5, [100, 101], {}⟩, ⟨8, [102, 103], {}⟩] := by decide +kernel

/-- The timestamp of a line that is hidden by a deferred removal goes to the next line if that has none: a timestamp `1`, `a`,
`b`, with the removal of `a` at 9. -/
theorem C30_stale_stamp : readLines (List.replicate 40 0) [124, 9, 116, 105, 109, 101, 61, 49, 10, 97, 10, 98, 10] [9] =
    some [⟨11, [98], ⟨[49], some 0⟩⟩] := by decide +kernel

/-! C36: appending that is interrupted. -/

theorem lines_torn (b : Bool) {line part : List Nat} (hl : ∀ c ∈ line, ¬ IsBreak c) (hp : part <+: line ++ [10]) (o : Nat) :
    lines b o [] part = [] ∨ ∃ v, v <+: line ∧ v <+: part ∧ lines b o [] part = [(o, v)] := by
  have h10 : IsBreak 10 := by simp [IsBreak]
  have hp : part <+: line ∨ ∃ t, part = line ++ t ∧ t <+: [10] := by
    obtain ⟨r, hr⟩ := hp
    rcases List.append_eq_append_iff.1 hr with ⟨a, h1, h2⟩ | ⟨a, h1, h2⟩
    · exact .inl ⟨a, h1.symm⟩
    · exact .inr ⟨a, h1, r, h2.symm⟩
  rcases hp with hp | ⟨t, rfl, ht⟩
  · have hn : ∀ c ∈ part, ¬ IsBreak c := fun c hc => hl c (hp.subset hc)
    have := lines_text hn b o [] []
    rw [List.append_nil, List.nil_append] at this
    rw [this, lines]
    split
    · exact .inr ⟨part, hp, List.prefix_refl _, by simp⟩
    · exact .inl rfl
  · have ht : t = [] ∨ t = [10] := by
      obtain ⟨u, hu⟩ := ht
      cases t with
      | nil => exact .inl rfl
      | cons c t => simp at hu; exact .inr (by simp [hu])
    rw [lines_text hl, List.nil_append]
    rcases ht with rfl | rfl
    · rw [lines]
      split
      · exact .inr ⟨line, List.prefix_refl _, by simp, by simp⟩
      · exact .inl rfl
    · rw [lines, if_pos h10]
      split
      · exact .inl (by simp [lines])
      · exact .inr ⟨line, List.prefix_refl _, by simp, by simp [lines]⟩

/-- If only the first bytes of an append to a file with terminated lines were written, then reading the file gives all the
lines that were there, with the same offsets and timestamps, and at most one more: a beginning of the new line. -/
theorem C36_torn (junk file removals line part : List Nat) (hl : ∀ c ∈ line, ¬ IsBreak c) (hp : part <+: line ++ [10])
    (hlen : (file ++ part).length ≤ 2 ^ 29 - 1) (hc : Complete file) (hf : Fits junk.length (file ++ part)) :
    ∃ old es more, readLines junk file removals = some old ∧ readLines junk (file ++ part) removals = some es ∧
      es.map (fun e => (e.offset, e.text)) = old.map (fun e => (e.offset, e.text)) ++ more ∧
      (more = [] ∨ ∃ v, v <+: line ∧ more = [(file.length, v)]) ∧
      ∃ es', es = old ++ es' := by
  have hff : Fits junk.length file := fun w hw => hf w (hw.trans ⟨[], part, by simp⟩)
  obtain ⟨old, h1, h2, h3⟩ := C30_read junk file removals (by simp at hlen; omega) hc hff
  obtain ⟨es, b, h4, h5⟩ := readLines_spec junk (file ++ part) removals hlen hf
  rw [lines_append b file 0 [] part hc (fun _ => rfl), Nat.zero_add] at h5
  have hst : ∀ t ls ls', ∃ t', stamped removals t (ls ++ ls') = stamped removals t ls ++ stamped removals t' ls' := by
    intro t ls ls'
    induction ls generalizing t with
    | nil => exact ⟨t, rfl⟩
    | cons x ls ih =>
      obtain ⟨o, w⟩ := x
      rw [List.cons_append, stamped, stamped]
      split
      · exact ih _
      split
      · exact ih _
      split
      · exact ih _
      · obtain ⟨t', ht'⟩ := ih ([], none)
        exact ⟨t', by rw [ht', List.cons_append]⟩
  have hpre : ∃ es', es = old ++ es' := by
    obtain ⟨t', ht'⟩ := hst ([], none) (lines false 0 [] file) (lines b file.length [] part)
    rw [ht'] at h5
    obtain ⟨e1, e2, rfl, h6, -⟩ := List.map_eq_append_iff.1 h5
    refine ⟨e2, ?_⟩
    congr 1
    have hinj : ∀ x y : Entry, view x = view y → x = y := by
      rintro ⟨a, b, c, d⟩ ⟨a', b', c', d'⟩ h
      simp [view] at h
      obtain ⟨rfl, rfl, rfl, rfl⟩ := h; rfl
    exact (List.map_inj_right hinj).1 (h6.trans h2.symm)
  have hv : es.map (fun e => (e.offset, e.text)) = visible removals (lines false 0 [] file ++ lines b file.length [] part) := by
    rw [← stamped_visible removals ([], none), ← h5, List.map_map]; rfl
  rw [visible, List.filter_append] at hv
  refine ⟨old, es, _, h1, h4, hv.trans (by rw [h3]; rfl), ?_, hpre⟩
  rcases lines_torn b hl hp file.length with h | ⟨v, hv1, -, h⟩
  · left; rw [h]; rfl
  · rw [h, List.filter_cons]
    split
    · exact .inr ⟨v, hv1, rfl⟩
    · exact .inl rfl

/-- `a`, then three bytes of `bcde`. -/
example : [98, 99, 100] <+: [98, 99, 100, 101] ++ [10] ∧ (∀ c ∈ [98, 99, 100, 101], ¬ IsBreak c) ∧ Complete [97, 10] ∧
    Fits 8 ([97, 10] ++ [98, 99, 100]) ∧ readLines (List.replicate 8 0) [97, 10, 98, 99, 100] [] = some [⟨0, [97], {}⟩] ∧
    readLines (List.replicate 4 0) [97, 10, 98, 99, 100] [] = some [⟨0, [97], {}⟩, ⟨2, [98, 99, 100], {}⟩] := by
  refine ⟨⟨[101, 10], rfl⟩, by decide, ?_, fun w hw _ => ?_, by decide +kernel, by decide +kernel⟩
  · intro c h
    simp at h
    simp [IsBreak, ← h]
  · have := hw.length_le
    simp at this; omega

/-- But a line that is added then is joined with the incomplete one: `bc` and `de` become `bcde`. -/
theorem C36_joined : readLines (List.replicate 9 0) ([97, 10] ++ [98, 99] ++ [100, 101, 10]) [] = some [⟨0, [97], {}⟩, ⟨2, [98, 99, 100, 101], {}⟩] := by decide +kernel

end Clink.Hist
