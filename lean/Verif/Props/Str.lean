import Verif.Spec.Str
import Verif.Proof.Str
import Verif.Props.Utf
/-
Property C05: string buffer operations keep their contract at every capacity.
-/
namespace Clink.Str

/-- Run a list of operations; `none` is undefined behaviour. -/
def run (junk : Nat → Nat) : Str → List Op → Option (Str × List Bool)
  | s, [] => some (s, [])
  | s, op :: ops =>
    match step junk s op with
    | none => none
    | some (s', b) => (run junk s' ops).map (fun r => (r.1, b :: r.2))

/-- The same on abstract strings. -/
def specRun : SStr → List Op → SStr × List Bool
  | a, [] => (a, [])
  | a, op :: ops => let r := specRun (specStep a op).1 ops; (r.1, (specStep a op).2 :: r.2)

/-- Every operation's caller obligations are met along the run. -/
def RunOk : SStr → List Op → Prop
  | _, [] => True
  | a, op :: ops => OpOk a op ∧ RunOk (specStep a op).1 ops

/-- C05. From construction on (any capacity 1..65535, any garbage in the buffer and in newly
allocated memory), every sequence of operations that respects the caller obligations is free
of undefined behaviour, returns what the specification returns, and leaves exactly the
specified text in the buffer, NUL terminated, with the specified capacity. -/
theorem C05_refinement (junk : Nat → Nat) (mem : List Nat) (growable : Bool)
    (h1 : 0 < mem.length) (h2 : mem.length < 65536) (ops : List Op)
    (hok : RunOk ⟨[], mem.length, growable⟩ ops) :
    ∃ s0 s', Str.init mem growable = some s0 ∧
      run junk s0 ops = some (s', (specRun ⟨[], mem.length, growable⟩ ops).2) ∧
      Rep s' (specRun ⟨[], mem.length, growable⟩ ops).1 := by
  obtain ⟨s0, hi, hrep⟩ := init_rep mem growable h1 h2
  refine ⟨s0, ?_⟩
  generalize (⟨[], mem.length, growable⟩ : SStr) = a at hok hrep
  suffices ∃ s', run junk s0 ops = some (s', (specRun a ops).2) ∧ Rep s' (specRun a ops).1 by
    obtain ⟨s', x, y⟩ := this
    exact ⟨s', hi, x, y⟩
  clear hi
  induction ops generalizing s0 a with
  | nil => exact ⟨s0, rfl, hrep⟩
  | cons op ops ih =>
    obtain ⟨hop, hrest⟩ := hok
    obtain ⟨s1, e1, r1⟩ := step_rep junk hrep op hop
    obtain ⟨s', e2, r2⟩ := ih s1 _ hrest r1
    exact ⟨s', by simp [run, e1, e2, specRun], r2⟩

/-- A run that grows, overflows a fixed buffer, truncates, trims and appends. -/
def sampleOps : List Op :=
  [.concat [32, 97, 98, 0] none, .concat [99, 100, 101, 102, 0, 0] (some 5), .truncate 3, .trim,
   .concatNT [0, 7] 2, .copy [120, 10, 0], .trim]

example : RunOk ⟨[], 4, false⟩ sampleOps := by
  simp [RunOk, OpOk, sampleOps, specStep, growTo, upToNul]

example : (specRun ⟨[], 4, false⟩ sampleOps).1.text = [120] ∧
    (specRun ⟨[], 4, true⟩ sampleOps).2 = [true, true, true, true, true, true, true] ∧
    (specRun ⟨[], 4, false⟩ sampleOps).2 = [true, false, true, true, false, true, true] := by decide

/-- C05, the invariants a user sees: whatever the history, text plus terminator fit the
capacity, and the capacity stays a 16-bit number that never shrinks. -/
theorem C05_capacity (junk : Nat → Nat) (s : Str) (a : SStr) (op : Op) (h : Rep s a) (ho : OpOk a op) :
    ∃ s' b, step junk s op = some (s', b) ∧
      ∃ t r, s'.mem = t ++ 0 :: r ∧ t = (specStep a op).1.text ∧ s'.mem.length < 65536 ∧
        s.mem.length ≤ s'.mem.length ∧ (s.growable = false → s'.mem.length = s.mem.length) := by
  obtain ⟨s', h1, h2⟩ := step_rep junk h op ho
  obtain ⟨r, hr⟩ := h2.mem
  refine ⟨s', _, h1, _, r, hr, rfl, by rw [h2.cap]; exact h2.cap16, ?_, ?_⟩
  · rw [h.cap, h2.cap]
    cases op <;> simp only [specStep, growTo, growExact] <;> (repeat' split) <;> simp_all <;> omega
  · intro hg
    have hg' : a.growable = false := by rw [← h.grow]; exact hg
    rw [h.cap, h2.cap]
    cases op <;> simp only [specStep, growTo, growExact, hg'] <;> (repeat' split) <;> simp_all

/-- C05, concat on NUL-free text: the result is the old text followed by the longest prefix
of the argument that leaves room for the terminator, and `true` is returned exactly when
nothing was dropped. -/
theorem C05_concat (junk : Nat → Nat) (s : Str) (a : SStr) (h : Rep s a) (x rest : List Nat)
    (hx : ∀ c ∈ x, c ≠ 0) :
    ∃ s' b a', s.concat junk (x ++ 0 :: rest) none = some (s', b) ∧ Rep s' a' ∧
      a'.text = a.text ++ x.take (a'.cap - 1 - a.text.length) ∧
      (b = true ↔ a'.text = a.text ++ x) ∧
      (a.growable = true → a.text.length + x.length ≤ 65471 → b = true) := by
  have h0 : (0 : Nat) ∈ x ++ 0 :: rest := by simp
  obtain ⟨s', h1, h2⟩ := step_rep junk h (.concat (x ++ 0 :: rest) none) h0
  have hu : upToNul (x ++ 0 :: rest) = x := takeWhile_append_zero x rest hx
  have hu2 : upToNul x = x := by
    have := List.takeWhile_append_of_pos (p := (· != 0)) (l₁ := x) (l₂ := []) (by simpa using hx)
    simpa [upToNul] using this
  have hlt := rep_len_lt h
  refine ⟨s', _, _, h1, h2, ?_, ?_, ?_⟩
  · simp [specStep, hu, hu2]
  · simp only [specStep, hu, Option.getD_none, List.take_left, hu2, decide_eq_true_eq]
    generalize hC : growTo a.cap a.growable (a.text.length + x.length) = C
    constructor
    · intro hh; rw [List.take_of_length_le (by omega)]
    · intro hh
      have := congrArg List.length hh
      simp only [List.length_append, List.length_take] at this
      have hC' : a.cap ≤ C := by
        rw [← hC]; unfold growTo; split
        · omega
        · split <;> omega
      omega
  · intro hg hle
    simp only [specStep, hu, Option.getD_none, decide_eq_true_eq, growTo, hg, true_and]
    split
    · omega
    · split <;> omega

example : ∃ s, Str.init [9, 9, 9, 9] false = some s ∧ Rep s ⟨[], 4, false⟩ :=
  init_rep _ _ (by decide) (by decide)

/-- C05, concat without truncation appends everything or changes nothing. -/
theorem C05_concat_no_truncate (junk : Nat → Nat) (s : Str) (a : SStr) (h : Rep s a)
    (src : List Nat) (n : Nat) (hn : n ≤ src.length) :
    ∃ s' b a', s.concatNT junk src n = some (s', b) ∧ Rep s' a' ∧
      (b = true → a'.text = a.text ++ src.take n) ∧ (b = false → a'.text = a.text) := by
  obtain ⟨s', h1, h2⟩ := step_rep junk h (.concatNT src n) hn
  refine ⟨s', _, _, h1, h2, ?_, ?_⟩ <;> simp only [specStep] <;> split
  · simp_all
  · split <;> simp_all
  · simp
  · split <;> simp_all

example : ∃ s, Str.init [1, 1, 1] true = some s ∧ Rep s ⟨[], 3, true⟩ :=
  init_rep _ _ (by decide) (by decide)

/-- The caller obligation on `truncate` is needed: truncating a fresh string beyond its text
makes it "longer", exposing whatever was in the buffer (here the stale 5, 6). -/
theorem C05_truncate_beyond_end :
    (Str.init [7, 5, 6, 8] true).bind (fun s => (s.truncate 3).bind (fun s => s.length)) =
      some (3, ⟨[0, 5, 6, 0], 3, true⟩) := by decide

/-- C05 for converted text: appending UTF-16 text to a growable string whose result stays
below the 16-bit limit appends exactly the UTF-8 conversion; in a fixed (or over-long)
string it appends the prefix that fits.  Always terminated. -/
theorem C05_append_utf16 (junk : Nat → Nat) (s : Str) (a : SStr) (h : Rep s a)
    (hz : ∀ c ∈ a.text, c ≠ 0) (w : List Nat) (hw : ∀ u ∈ w, u < 65536) :
    ∃ s' a', s.appendUtf16 junk w = some s' ∧ Rep s' a' ∧
      a'.text = a.text ++ (Utf.toUtf8 none w).out.take (a'.cap - 1 - a.text.length) ∧
      (a.growable = true → a.text.length + (Utf.toUtf8 none w).out.length ≤ 65471 →
        a'.text = a.text ++ (Utf.toUtf8 none w).out) := by
  have hconv : ∀ c ∈ (Utf.toUtf8 none w).out, c ≠ 0 := by
    rw [Utf.toUtf8_none]
    intro c hc
    obtain ⟨p, hp, hc⟩ := List.mem_flatMap.1 hc
    have hp' : Utf.IsText p := Utf.cps16_text w hw p hp
    rw [Utf.enc8_eq_spec p hp'.2.1] at hc
    exact Utf.specUtf8_pos p hp'.1 c hc
  unfold Str.appendUtf16
  simp only [length_of_rep h]
  generalize hL : (Utf.toUtf8 none w).out = L at *
  -- capacity after the optional reservation
  obtain ⟨hr, -, -⟩ := reserve_rep junk (rep_setcache h) (a.text.length + L.length)
  have hg : ({ s with cache := a.text.length } : Str).growable = a.growable := h.grow
  have key : ∃ s1 C, (if ({ s with cache := a.text.length } : Str).growable = true then
      (({ s with cache := a.text.length } : Str).reserve junk (a.text.length + L.length)).1
      else { s with cache := a.text.length }) = s1 ∧ Rep s1 { a with cap := C } ∧
      (a.growable = true → a.text.length + L.length ≤ 65471 → a.text.length + L.length < C) := by
    have hg2 : s.growable = a.growable := h.grow
    by_cases hgt : a.growable = true
    · rw [if_pos (by rw [hg]; exact hgt)]
      refine ⟨_, _, rfl, hr, ?_⟩
      intro _ hle
      unfold growTo
      rw [hgt]
      split
      · omega
      · simp only [true_and]; split <;> omega
    · rw [if_neg (by rw [hg]; exact hgt)]
      exact ⟨_, a.cap, rfl, rep_setcache h, by intro h1; exact absurd h1 hgt⟩
  obtain ⟨s1, C, hs1, hrep, hbig⟩ := key
  rw [hs1]
  have hcap : s1.mem.length = C := hrep.cap
  have hlt : a.text.length < C := rep_len_lt hrep
  obtain ⟨hm1, -⟩ := rep_mem_split hrep
  simp only at hm1
  obtain ⟨-, b2, b3⟩ := Utf.C04_to_utf8_bounded w (C - a.text.length)
  rw [hL] at b2 b3
  have hmem := b2 (by omega)
  have hs : s1.data.mem = s1.mem := rfl
  rw [hs, hcap, hmem]
  have e : C - a.text.length - 1 = C - 1 - a.text.length := by omega
  rw [e]
  rw [store_ok _ _ _ (by rw [hcap, List.length_append, List.length_take]; simp only [List.length_cons, List.length_nil]; omega)]
  refine ⟨_, { a with text := a.text ++ L.take (C - 1 - a.text.length), cap := C }, rfl, ?_, rfl, ?_⟩
  · refine ⟨⟨s1.mem.drop (a.text.length + (L.take (C - 1 - a.text.length) ++ [0]).length), ?_⟩, ?_, hrep.cap16, hrep.grow, Or.inr ⟨rfl, ?_⟩⟩
    · simp only [hm1]; simp
    · simp only [List.length_append, List.length_take, List.length_drop, List.length_cons, List.length_nil]
      omega
    · intro c hc
      rcases List.mem_append.1 hc with hc | hc
      · exact hz c hc
      · exact hconv c (List.mem_of_mem_take hc)
  · intro h1 h2
    have := hbig h1 h2
    simp only
    rw [List.take_of_length_le (by omega)]

example : (∀ u ∈ [0x20AC, 0xD83D, 0xDE00], u < 65536) ∧
    ((Str.init [7, 5] true).bind (fun s => s.appendUtf16 (fun _ => 9) [0x20AC])).map (fun s => s.mem.take 4) =
      some [0xE2, 0x82, 0xAC, 0] := by decide +kernel

end Clink.Str
