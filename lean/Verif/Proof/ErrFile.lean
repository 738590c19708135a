import Verif.Model.ErrFile
import Verif.Spec.ErrFile
import Verif.Proof.Utf
import Verif.Props.Utf
/-
Proofs about reading the lines of the file with the exit code.
-/
namespace Clink.ErrFile
open Clink.Utf Spec

/-- The first line of a text and what comes after it. -/
theorem lines_cases (bs : List Nat) (h : bs ≠ []) :
    ∃ l : List Nat, 10 ∉ l ∧
      ((bs = l ∧ lines bs = [l]) ∨ ∃ r : List Nat, bs = l ++ 10 :: r ∧ lines bs = l :: lines r) := by
  induction bs with
  | nil => exact absurd rfl h
  | cons c cs ih =>
    by_cases hc : c = 10
    · subst hc
      exact ⟨[], by simp, .inr ⟨cs, by simp, by simp [lines]⟩⟩
    · by_cases hcs : cs = []
      · subst hcs
        refine ⟨[c], ?_, .inl ⟨rfl, by simp [lines, hc]⟩⟩
        simpa using fun e : (10 : Nat) = c => hc e.symm
      · obtain ⟨l, hl, h1 | ⟨r, h1, h2⟩⟩ := ih hcs
        · refine ⟨c :: l, ?_, .inl ⟨by rw [← h1.1], by simp [lines, hc, h1.2]⟩⟩
          simp only [List.mem_cons, not_or]
          exact ⟨fun e => hc e.symm, hl⟩
        · refine ⟨c :: l, ?_, .inr ⟨r, by rw [h1]; rfl, by simp [lines, hc, h2]⟩⟩
          simp only [List.mem_cons, not_or]
          exact ⟨fun e => hc e.symm, hl⟩

theorem stripCR_eq (l : List Nat) : stripCR l = chomp l := rfl

/-- Bytes that are no end of a line. -/
theorem loop8_line (l tail out : List Nat) (h : ∀ c ∈ l, c ≠ 255 ∧ c ≠ 0 ∧ c ≠ 10) :
    loop8 (l ++ tail) out = loop8 tail (out ++ l) := by
  induction l generalizing out with
  | nil => simp
  | cons c cs ih =>
    have hc := h c (by simp)
    have : ¬ (c = 255 ∨ c = 0 ∨ c = 10) := by omega
    simp only [List.cons_append, loop8, this, if_false]
    rw [ih _ (fun x hx => h x (by simp [hx]))]
    simp [cat, hc.2.1]

/-- Units that are no end of a line. -/
theorem loop16_line (l tail buf : List Nat) (h : ∀ c ∈ l, c ≠ 0 ∧ c ≠ 10) :
    loop16 (l.flatMap (fun u => [u % 256, u / 256]) ++ tail) buf = loop16 tail (buf ++ l) := by
  induction l generalizing buf with
  | nil => simp
  | cons c cs ih =>
    have hc := h c (by simp)
    have e : c % 256 + 256 * (c / 256) = c := by omega
    have : ¬ (c = 0 ∨ c = 10) := by omega
    simp only [List.flatMap_cons, List.cons_append, List.nil_append, loop16, e, this, if_false]
    rw [ih _ (fun x hx => h x (by simp [hx]))]
    simp [cat, hc.1]

/-- What is left after a line. -/
def Left (rest : List Nat) (f : File) : Prop := f.rest = rest ∧ (f.eof = true → rest = [])

/-- One line is read and converted. -/
theorem step8 (acp : List Nat → List Nat) (h0 : acp [] = []) (l tail rest : List Nat) (r : Reader)
    (hl : ∀ c ∈ l, c ≠ 255 ∧ c ≠ 0 ∧ c ≠ 10) (hr : ∀ c ∈ rest, c ≠ 0)
    (ht : (tail = [] ∧ rest = [] ∧ l ≠ []) ∨ tail = 10 :: rest)
    (hf : r.file = ⟨l ++ tail, false⟩) (hu : r.utf16 = some false ∨ r.utf16 = none) (hc : 1 ≤ r.cap) :
    ∃ f, Left rest f ∧ next acp r = convert acp ⟨f, some false, r.cap⟩ (chomp l) := by
  obtain ⟨file, u, cap⟩ := r
  simp only at hf hu hc
  subst hf
  have hconv : ∀ f, convert acp ⟨f, some false, cap⟩ [] = some (true, [], ⟨f, some false, cap⟩) := by
    intro f
    have : 0 + 1 ≤ cap := by omega
    simp [convert, h0, reserve, hc, toUtf8_none, cps16_nil]
  have hend : ∃ f, Left rest f ∧ ∀ o, loop8 tail o = (o, f) := by
    rcases ht with ⟨h1, h2, _⟩ | h1
    · exact ⟨⟨[], true⟩, ⟨h2.symm, fun _ => h2⟩, by simp [h1, loop8]⟩
    · exact ⟨⟨rest, false⟩, ⟨rfl, by simp⟩, by simp [h1, loop8]⟩
  obtain ⟨f, hf, hloop⟩ := hend
  rcases hu with hu | hu <;> subst hu
  · refine ⟨f, hf, ?_⟩
    have hb : body acp ⟨⟨l ++ tail, false⟩, some false, cap⟩ false [] [] =
        convert acp ⟨f, some false, cap⟩ (chomp l) := by
      have h1 : loop8 (l ++ tail) [] = (l, f) := by rw [loop8_line l tail [] hl, hloop]; simp
      unfold body
      simp only [Bool.false_eq_true, if_false]
      split
      · next heq =>
        rcases ht with ⟨_, _, h⟩ | h
        · exact absurd (List.append_eq_nil_iff.1 heq).1 h
        · simp [h] at heq
      · next c cs heq =>
        have hc' : c ≠ 255 := by
          cases l with
          | nil =>
            rcases ht with ⟨_, _, h⟩ | h
            · exact absurd rfl h
            · rw [h] at heq; simp at heq; omega
          | cons a as => simp at heq; have := hl a (by simp); omega
        rw [if_neg hc', h1]
        rfl
    simpa [next] using hb
  · cases l with
    | nil =>
      rcases ht with ⟨_, _, h⟩ | h
      · exact absurd rfl h
      · subst h
        cases rest with
        | nil =>
          refine ⟨⟨[], true⟩, ⟨rfl, fun _ => rfl⟩, ?_⟩
          simp only [chomp, List.getLast?_nil, reduceCtorEq, if_false]
          rw [hconv]
          simp [next]
        | cons c2 rs =>
          refine ⟨⟨c2 :: rs, false⟩, ⟨rfl, by simp⟩, ?_⟩
          simp only [chomp, List.getLast?_nil, reduceCtorEq, if_false]
          rw [hconv]
          have := hr c2 (by simp)
          simp [next, this]
    | cons a as =>
      have ha := hl a (by simp)
      have has : ∀ c ∈ as, c ≠ 255 ∧ c ≠ 0 ∧ c ≠ 10 := fun c hc => hl c (by simp [hc])
      refine ⟨f, hf, ?_⟩
      have h1 : loop8 (as ++ tail) [a] = (a :: as, f) := by
        rw [loop8_line as tail [a] has, hloop]; rfl
      have h2 : loop8 (a :: as ++ tail) [] = (a :: as, f) := by
        rw [loop8_line (a :: as) tail [] hl, hloop]; rfl
      cases hrest : as ++ tail with
      | nil =>
        rw [List.cons_append, hrest] at h2
        simp only [next, List.cons_append, hrest, Bool.false_eq_true, if_false, ha.2.2]
        simp only [body, Bool.false_eq_true, if_false, ha.1, h2]
        rfl
      | cons c2 rs =>
        have hc2 : c2 ≠ 0 ∧ c2 ≠ 255 := by
          cases as with
          | nil =>
            rcases ht with ⟨h, _, _⟩ | h
            · simp [h] at hrest
            · rw [h] at hrest; simp at hrest; omega
          | cons b bs => simp at hrest; have := has b (by simp); omega
        rw [hrest] at h1
        simp only [next, List.cons_append, hrest, Bool.false_eq_true, if_false, hc2.1, ha.2.2]
        simp only [body, Bool.false_eq_true, if_false, hc2.2, cat, ha.2.1, List.nil_append, h1]
        rfl

/-- Lines that are short fit into the buffer. -/
theorem convert_ok (acp : List Nat → List Nat) (f : File) (cap : Nat) (out : List Nat)
    (hc : cap = 1 ∨ cap = 64) (h : (acp out).length ≤ 63) :
    ∃ cap', (cap' = 1 ∨ cap' = 64) ∧
      convert acp ⟨f, some false, cap⟩ out = some (true, (toUtf8 none (acp out)).out, ⟨f, some false, cap'⟩) := by
  generalize hn : (acp out).length = n at h
  have : ∃ cap', (cap' = 1 ∨ cap' = 64) ∧ reserve cap ((n + 1) / 2) = some cap' ∧ n + 1 ≤ cap' := by
    unfold reserve
    split
    · next h1 =>
      refine ⟨cap, hc, rfl, ?_⟩
      omega
    · next h1 =>
      have : ((n + 1) / 2 + 1 + 63) / 64 * 64 = 64 := by omega
      simp only [this]
      exact ⟨64, .inr rfl, by simp, by omega⟩
  obtain ⟨cap', h1, h2, h3⟩ := this
  exact ⟨cap', h1, by simp [convert, hn, h2, h3]⟩

/-- Lines that are long do not. -/
theorem convert_long (acp : List Nat → List Nat) (f : File) (cap : Nat) (out : List Nat)
    (hc : cap = 1 ∨ cap = 64) (h : 64 ≤ (acp out).length) (h2 : (acp out).length ≠ 127)
    (h3 : (acp out).length < 100000) : convert acp ⟨f, some false, cap⟩ out = none := by
  generalize hn : (acp out).length = n at h h2 h3
  have : ∃ cap', reserve cap ((n + 1) / 2) = some cap' ∧ cap' < n + 1 := by
    unfold reserve
    split
    · next h1 => exact ⟨cap, rfl, by omega⟩
    · next h1 =>
      refine ⟨((n + 1) / 2 + 1 + 63) / 64 * 64, ?_, by omega⟩
      simp only
      rw [if_pos (by omega)]
  obtain ⟨cap', h4, h5⟩ := this
  have : ¬ n + 1 ≤ cap' := by omega
  simp [convert, hn, h4, this]

/-- A reader that has `bs` still to read. -/
def St (r : Reader) (bs : List Nat) : Prop :=
  Left bs r.file ∧ (r.utf16 = some false ∨ r.utf16 = none) ∧ (r.cap = 1 ∨ r.cap = 64)

theorem next_end (acp : List Nat → List Nat) (r : Reader) (h : r.file.rest = []) :
    ∃ r', next acp r = some (false, [], r') := by
  obtain ⟨⟨rest, eof⟩, u, cap⟩ := r
  simp only at h
  subst h
  cases eof
  · cases u with
    | none => exact ⟨_, by simp [next]; rfl⟩
    | some w => cases w <;> exact ⟨_, by simp [next, body]; rfl⟩
  · exact ⟨_, by simp [next]; rfl⟩

/-- One call on a text that is not read completely. -/
theorem st_next (acp : List Nat → List Nat) (h0 : acp [] = []) (r : Reader) (bs : List Nat) (hbs : bs ≠ [])
    (hst : St r bs) (hb : ∀ c ∈ bs, c ≠ 255 ∧ c ≠ 0) :
    ∃ l rest f, lines bs = l :: lines rest ∧ (∀ c ∈ rest, c ∈ bs) ∧ Left rest f ∧
      next acp r = convert acp ⟨f, some false, r.cap⟩ (chomp l) := by
  obtain ⟨⟨h1, h2⟩, hu, hc⟩ := hst
  have heof : r.file.eof = false := by
    cases h : r.file.eof with
    | false => rfl
    | true => exact absurd (h2 h) hbs
  have hfile : r.file = ⟨bs, false⟩ := by
    rw [← h1, ← heof]
  obtain ⟨l, hl, ⟨e1, e2⟩ | ⟨rest, e1, e2⟩⟩ := lines_cases bs hbs
  · obtain ⟨f, hf, hn⟩ := step8 acp h0 l [] [] r
      (fun c hc => ⟨(hb c (e1 ▸ hc)).1, (hb c (e1 ▸ hc)).2, fun e => hl (e ▸ hc)⟩) (by simp)
      (.inl ⟨rfl, rfl, e1 ▸ hbs⟩) (by rw [hfile, List.append_nil, ← e1]) hu (by omega)
    exact ⟨l, [], f, by rw [e2]; simp [lines], by simp, hf, hn⟩
  · have hmem : ∀ c ∈ rest, c ∈ bs := fun c hc => by rw [e1]; simp [hc]
    obtain ⟨f, hf, hn⟩ := step8 acp h0 l (10 :: rest) rest r
      (fun c hc => by
        have := hb c (by rw [e1]; simp [hc])
        exact ⟨this.1, this.2, fun e => hl (e ▸ hc)⟩)
      (fun c hc => (hb c (hmem c hc)).2) (.inr rfl) (by rw [hfile, e1]) hu (by omega)
    exact ⟨l, rest, f, e2, hmem, hf, hn⟩

/-- Calls give the lines, up to a line that is too long. -/
theorem calls8 (acp : List Nat → List Nat) (h0 : acp [] = []) (pre post : List (List Nat)) :
    ∀ (bs : List Nat) (r : Reader), St r bs → (∀ c ∈ bs, c ≠ 255 ∧ c ≠ 0) → lines bs = pre ++ post →
      (∀ l ∈ pre, (acp (chomp l)).length ≤ 63) →
      ∃ r' bs', St r' bs' ∧ (∀ c ∈ bs', c ≠ 255 ∧ c ≠ 0) ∧ lines bs' = post ∧
        ∀ n, calls acp (pre.length + n) r =
          (calls acp n r').map fun l => pre.map (fun l => (true, (toUtf8 none (acp (chomp l))).out)) ++ l := by
  induction pre with
  | nil =>
    intro bs r hst hb hl _
    exact ⟨r, bs, hst, hb, hl, fun n => by simp⟩
  | cons p pre ih =>
    intro bs r hst hb hl hshort
    have hbs : bs ≠ [] := by rintro rfl; simp [lines] at hl
    obtain ⟨l, rest, f, e1, hmem, hf, hn⟩ := st_next acp h0 r bs hbs hst hb
    rw [e1] at hl
    simp only [List.cons_append, List.cons.injEq] at hl
    obtain ⟨rfl, hl⟩ := hl
    obtain ⟨cap', hc', hcv⟩ := convert_ok acp f r.cap (chomp l) hst.2.2 (hshort l (by simp))
    rw [hcv] at hn
    obtain ⟨r', bs', h1, h2, h3, h4⟩ := ih rest ⟨f, some false, cap'⟩ ⟨hf, .inl rfl, hc'⟩
      (fun c hc => hb c (hmem c hc)) hl (fun x hx => hshort x (by simp [hx]))
    refine ⟨r', bs', h1, h2, h3, fun n => ?_⟩
    have e : (l :: pre).length + n = (pre.length + n) + 1 := by simp; omega
    rw [e]
    simp only [calls, hn, h4 n]
    cases calls acp n r' <;> simp

/-- A UTF-8 text ends with a carriage return only if the last character is one. -/
theorem chomp_utf8 (cs : List Nat) (h : ∀ c ∈ cs, IsText c) : stripCR (utf8 cs) = utf8 (chomp cs) := by
  rcases List.eq_nil_or_concat cs with rfl | ⟨as, a, rfl⟩
  · rfl
  · have ha : IsText a := h a (by simp)
    have e : utf8 (as.concat a) = utf8 as ++ specUtf8 a := by simp [utf8]
    rw [e]
    by_cases h13 : a = 13
    · subst h13
      have e2 : specUtf8 13 = [13] := by decide
      rw [e2]
      simp [stripCR, chomp]
    · have hlast : (utf8 as ++ specUtf8 a).getLast? ≠ some 13 := by
        have hm : ∀ x : Nat, 0x80 + x % 64 ≠ 13 := fun x => by omega
        unfold specUtf8
        split
        · simpa using h13
        · split
          · simpa using hm a
          · split
            · simpa using hm a
            · simpa using hm a
      have h13' : (as.concat a).getLast? ≠ some 13 := by simpa using h13
      rw [stripCR, if_neg hlast, chomp, if_neg h13', e]

theorem utf16_units (l : List Nat) (h : ∀ c ∈ l, IsText c) (hn : 10 ∉ l) :
    ∀ u ∈ utf16 l, u ≠ 0 ∧ u ≠ 10 := by
  intro u hu
  obtain ⟨c, hc, hu⟩ := List.mem_flatMap.1 hu
  have hi := h c hc
  have h10 : c ≠ 10 := fun e => hn (e ▸ hc)
  have h0 : c ≠ 0 := by have := hi.1; omega
  unfold specUtf16 at hu
  split at hu
  · simp at hu; subst hu; exact ⟨h0, h10⟩
  · simp at hu
    have hx : ∀ a b : Nat, 1000 ≤ a → a + b ≠ 0 ∧ a + b ≠ 10 := fun a b h => by omega
    rcases hu with h | h <;> rw [h] <;> exact hx _ _ (by decide)

theorem bytes16_append (a b : List Nat) : bytes16 (a ++ b) = bytes16 a ++ bytes16 b := by
  simp [bytes16, utf16]

theorem bytes16_nl (r : List Nat) : bytes16 (10 :: r) = 10 :: 0 :: bytes16 r := by
  simp [bytes16, utf16, specUtf16]

/-- The loop over one line. -/
theorem loop16_text (l tail rest buf : List Nat) (h : ∀ c ∈ l, IsText c) (hn : 10 ∉ l)
    (ht : (tail = [] ∧ rest = []) ∨ tail = 10 :: rest) :
    ∃ f, Left (bytes16 rest) f ∧ loop16 (bytes16 (l ++ tail)) buf = (buf ++ utf16 l, f) := by
  rw [bytes16_append]
  have e := loop16_line (utf16 l) (bytes16 tail) buf (utf16_units l h hn)
  have e' : bytes16 l = (utf16 l).flatMap (fun u => [u % 256, u / 256]) := rfl
  rw [e', e]
  rcases ht with ⟨rfl, rfl⟩ | rfl
  · exact ⟨⟨[], true⟩, ⟨rfl, fun _ => rfl⟩, rfl⟩
  · rw [bytes16_nl]
    exact ⟨⟨bytes16 rest, false⟩, ⟨rfl, by simp⟩, by simp [loop16]⟩

theorem bytes16_two (c : Nat) (cs : List Nat) : ∃ a b t, bytes16 (c :: cs) = a :: b :: t := by
  by_cases h : c < 0x10000
  · exact ⟨c % 256, c / 256, bytes16 cs, by simp [bytes16, utf16, specUtf16, h]⟩
  · exact ⟨_, _, _, by simp [bytes16, utf16, specUtf16, h]; exact ⟨rfl, rfl, rfl⟩⟩

theorem body16 (acp : List Nat → List Nat) (u : Option Bool) (e : Bool) (cap : Nat) (bs buf : List Nat)
    (h : ∃ a b t, bs = a :: b :: t) :
    body acp ⟨⟨bs, e⟩, u, cap⟩ true buf [] =
      some (true, stripCR (toUtf8 none (loop16 bs buf).1).out, ⟨(loop16 bs buf).2, u, cap⟩) := by
  obtain ⟨a, b, t, rfl⟩ := h
  simp [body]

/-- A reader that has the UTF-16 text `cs` still to read. -/
def StW (r : Reader) (cs : List Nat) : Prop :=
  Left (bytes16 cs) r.file ∧
    (r.utf16 = some true ∨
      (r.utf16 = none ∧ (∀ c, cs.head? = some c → c < 256) ∧ (∀ c, cs = [c] → c = 10)))

theorem stw_next (acp : List Nat → List Nat) (r : Reader) (cs : List Nat) (hcs : cs ≠ [])
    (hst : StW r cs) (hb : ∀ c ∈ cs, IsText c) :
    ∃ l rest r', lines cs = l :: lines rest ∧ (∀ c ∈ rest, c ∈ cs) ∧ StW r' rest ∧
      next acp r = some (true, utf8 (chomp l), r') := by
  obtain ⟨⟨file, eof⟩, u, cap⟩ := r
  obtain ⟨⟨h1, h2⟩, hu⟩ := hst
  simp only at h1 h2 hu
  subst h1
  have heof : eof = false := by
    cases h : eof with
    | false => rfl
    | true =>
      have := h2 h
      cases cs with
      | nil => exact absurd rfl hcs
      | cons c t => obtain ⟨a, b, t', e⟩ := bytes16_two c t; rw [e] at this; simp at this
  subst heof
  obtain ⟨l, tail, rest, hl, hlt, hm, hlines, ht⟩ :
      ∃ l tail rest : List Nat, 10 ∉ l ∧ cs = l ++ tail ∧ (∀ c ∈ rest, c ∈ cs) ∧
        lines cs = l :: lines rest ∧ ((tail = [] ∧ rest = []) ∨ tail = 10 :: rest) := by
    obtain ⟨l, hl, ⟨e1, e2⟩ | ⟨rest, e1, e2⟩⟩ := lines_cases cs hcs
    · exact ⟨l, [], [], hl, by simp [e1], by simp, by rw [e2]; simp [lines], .inl ⟨rfl, rfl⟩⟩
    · exact ⟨l, 10 :: rest, rest, hl, e1, fun c hc => by rw [e1]; simp [hc], e2, .inr rfl⟩
  have hlt' : ∀ c ∈ l, IsText c := fun c hc => hb c (by rw [hlt]; simp [hc])
  have hout : stripCR (toUtf8 none (utf16 l)).out = utf8 (chomp l) := by
    have e : (toUtf8 none (utf16 l)).out = utf8 l := (C02_utf16_roundtrip l hlt').1
    rw [e, chomp_utf8 l hlt']
  rcases hu with rfl | ⟨rfl, h256, hone⟩
  · obtain ⟨f, hf, hloop⟩ := loop16_text l tail rest [] hlt' hl ht
    refine ⟨l, rest, ⟨f, some true, cap⟩, hlines, hm, ⟨hf, .inl rfl⟩, ?_⟩
    have h2 : ∃ a b t, bytes16 cs = a :: b :: t := by
      cases cs with
      | nil => exact absurd rfl hcs
      | cons c t => exact bytes16_two c t
    have hb16 := body16 acp (some true) false cap (bytes16 cs) [] h2
    rw [hlt, hloop] at hb16
    simp only [List.nil_append, hout] at hb16
    simpa [next, hlt] using hb16
  · cases hcs' : cs with
    | nil => exact absurd hcs' hcs
    | cons c t =>
      have hc : c < 256 := h256 c (by simp [hcs'])
      have e16 : bytes16 (c :: t) = c :: 0 :: bytes16 t := by
        have h1 : c < 65536 := by omega
        have h2 : c % 256 = c := by omega
        have h3 : c / 256 = 0 := by omega
        simp [bytes16, utf16, specUtf16, h1, h2, h3]
      rw [hcs'] at hlt hlines hm
      cases l with
      | nil =>
        rcases ht with ⟨h, _⟩ | h
        · simp [h] at hlt
        · rw [h] at hlt
          simp only [List.nil_append, List.cons.injEq] at hlt
          obtain ⟨rfl, rfl⟩ := hlt
          refine ⟨[], t, ⟨⟨bytes16 t, false⟩, some true, cap⟩, hlines, hm, ⟨⟨rfl, by simp⟩, .inl rfl⟩, ?_⟩
          simp [next, e16, chomp, utf8]
      | cons a as =>
        simp only [List.cons_append, List.cons.injEq] at hlt
        obtain ⟨rfl, rfl⟩ := hlt
        have hc10 : c ≠ 10 := fun e => hl (by simp [e])
        have hc0 : c ≠ 0 := by have := (hlt' c (by simp)).1; omega
        obtain ⟨f, hf, hloop⟩ := loop16_text as tail rest [c] (fun x hx => hlt' x (by simp [hx]))
          (fun h => hl (by simp [h])) ht
        refine ⟨c :: as, rest, ⟨f, some true, cap⟩, hlines, hm, ⟨hf, .inl rfl⟩, ?_⟩
        have h2 : ∃ a b t, bytes16 (as ++ tail) = a :: b :: t := by
          cases hx : as ++ tail with
          | nil => exact absurd (hone c (by rw [hcs', hx])) hc10
          | cons c t => exact bytes16_two c t
        have hb16 := body16 acp (some true) false cap (bytes16 (as ++ tail)) [c] h2
        have e2 : [c] ++ utf16 as = utf16 (c :: as) := by
          have h1 : c < 65536 := by omega
          simp [utf16, specUtf16, h1]
        rw [hloop] at hb16
        simp only [e2, hout] at hb16
        simpa [next, e16, hc10, cat, hc0] using hb16

theorem calls16 (acp : List Nat → List Nat) (ls : List (List Nat)) :
    ∀ (cs : List Nat) (r : Reader), StW r cs → (∀ c ∈ cs, IsText c) → lines cs = ls →
      calls acp (ls.length + 1) r = some (ls.map (fun l => (true, utf8 (chomp l))) ++ [(false, [])]) := by
  induction ls with
  | nil =>
    intro cs r hst hb hl
    have hcs : cs = [] := by
      cases hc : cs with
      | nil => rfl
      | cons c t =>
        obtain ⟨l, _, ⟨_, e⟩ | ⟨_, _, e⟩⟩ := lines_cases cs (by simp [hc]) <;> rw [hl] at e <;> simp at e
    subst hcs
    obtain ⟨r', e⟩ := next_end acp r (by rw [hst.1.1]; rfl)
    simp [calls, e]
  | cons p ls ih =>
    intro cs r hst hb hl
    have hcs : cs ≠ [] := by rintro rfl; simp [lines] at hl
    obtain ⟨l, rest, r', e1, hm, hst', hn⟩ := stw_next acp r cs hcs hst hb
    rw [e1] at hl
    simp only [List.cons.injEq] at hl
    obtain ⟨rfl, hl⟩ := hl
    have := ih rest r' hst' (fun c hc => hb c (hm c hc)) hl
    simp only [List.length_cons, calls, hn]
    simp only [calls] at this
    simp [this]

theorem lines_line (l r : List Nat) (h : 10 ∉ l) : lines (l ++ 10 :: r) = l :: lines r := by
  induction l with
  | nil => simp [lines]
  | cons c cs ih =>
    have hc : c ≠ 10 := fun e => h (by simp [e])
    simp [lines, hc, ih (fun m => h (by simp [m]))]

theorem digits_range (n : Nat) : ∀ c ∈ digits n, 48 ≤ c ∧ c ≤ 57 := by
  fun_induction digits n with
  | case1 n h => intro c hc; simp at hc; omega
  | case2 n h ih =>
    intro c hc
    rcases List.mem_append.1 hc with hc | hc
    · exact ih c hc
    · simp at hc; omega

theorem digits_ne (n : Nat) : digits n ≠ [] := by
  unfold digits
  split <;> simp

theorem digits_length (n k : Nat) (h : n < 10 ^ (k + 1)) : (digits n).length ≤ k + 1 := by
  induction k generalizing n with
  | zero =>
    have : n < 10 := by simpa using h
    unfold digits
    simp [this]
  | succ k ih =>
    unfold digits
    split
    · simp
    · have : n / 10 < 10 ^ (k + 1) := by
        rw [Nat.pow_succ] at h
        exact Nat.div_lt_of_lt_mul (by rw [Nat.mul_comm]; exact h)
      have := ih (n / 10) this
      simp; omega

theorem atoiDigits_append (l t : List Nat) (n : Int) (h : ∀ c ∈ l, 48 ≤ c ∧ c ≤ 57) :
    atoiDigits n (l ++ t) = atoiDigits (atoiDigits n l) t := by
  induction l generalizing n with
  | nil => simp [atoiDigits]
  | cons c cs ih =>
    have hc := h c (by simp)
    simp only [List.cons_append, atoiDigits, hc, and_self, if_true]
    exact ih _ (fun x hx => h x (by simp [hx]))

theorem atoiDigits_digits (m : Nat) : atoiDigits 0 (digits m) = m := by
  fun_induction digits m with
  | case1 m h =>
    have h1 : 48 ≤ 48 + m := by omega
    have h2 : 48 + m ≤ 57 := by omega
    simp only [atoiDigits, h1, h2, and_self, if_true]
    omega
  | case2 m h ih =>
    rw [atoiDigits_append _ _ _ (digits_range _), ih]
    have h1 : 48 ≤ 48 + m % 10 := by omega
    have h2 : 48 + m % 10 ≤ 57 := by omega
    simp only [atoiDigits, h1, h2, and_self, if_true]
    omega

/-- Spaces end a number. -/
theorem atoiDigits_spaces (n : Int) (k : Nat) : atoiDigits n (List.replicate k 32) = n := by
  cases k <;> simp [atoiDigits, List.replicate_succ]

theorem atoi_decimal (v : Int) (k : Nat) (h1 : -2147483648 ≤ v) (h2 : v ≤ 2147483647) :
    atoi (decimal v ++ List.replicate k 32) = v := by
  have hd : atoiDigits 0 (digits v.natAbs ++ List.replicate k 32) = v.natAbs := by
    rw [atoiDigits_append _ _ _ (digits_range _), atoiDigits_digits, atoiDigits_spaces]
  unfold decimal
  split
  · next hn =>
    simp only [atoi, List.cons_append]
    rw [List.dropWhile_cons_of_neg (by simp)]
    simp only [hd]
    have e : -(v.natAbs : Int) = v := by omega
    rw [e, if_neg (by omega), if_neg (by omega)]
  · next hn =>
    obtain ⟨d, ds, e⟩ := List.exists_cons_of_ne_nil (digits_ne v.natAbs)
    have hr := digits_range v.natAbs d (by rw [e]; simp)
    rw [e] at hd ⊢
    simp only [atoi, List.cons_append]
    rw [List.dropWhile_cons_of_neg (by simp; omega)]
    have ev : (v.natAbs : Int) = v := by omega
    split
    · next heq => simp at heq; omega
    · next heq => simp at heq; omega
    · next cs heq =>
      rw [List.cons_append] at hd
      rw [hd, ev, if_neg (by omega), if_neg (by omega)]

theorem decimal_ascii (v : Int) : ∀ c ∈ decimal v, 45 ≤ c ∧ c ≤ 57 := by
  intro c hc
  unfold decimal at hc
  split at hc
  · rcases List.mem_cons.1 hc with rfl | hc
    · omega
    · have := digits_range _ c hc; omega
  · have := digits_range _ c hc; omega

theorem decimal_length (v : Int) (h1 : -2147483648 ≤ v) (h2 : v ≤ 2147483647) :
    (decimal v).length ≤ 11 := by
  have : (digits v.natAbs).length ≤ 9 + 1 := digits_length _ 9 (by omega)
  unfold decimal
  split
  · simp; omega
  · omega

theorem utf8_ascii (l : List Nat) (h : ∀ c ∈ l, c < 128) : utf8 l = l := by
  induction l with
  | nil => rfl
  | cons c cs ih =>
    have hc := h c (by simp)
    have := ih (fun x hx => h x (by simp [hx]))
    simp only [utf8, List.flatMap_cons, specUtf8, hc, if_true] at this ⊢
    rw [this]; rfl

end Clink.ErrFile
