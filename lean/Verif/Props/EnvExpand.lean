import Verif.Proof.EnvExpand

/-!
C41: expanding environment variables.

A text is given by its characters `cs`; `flat cs` is its UTF-8.  `env k name` is what `os::get_env` says of the variable for
the reference at byte `k` (`getEnv os`); it depends on the position only because of `%RANDOM%`.
-/

namespace Clink.EnvExpand

open Utf (IsText)
open Doskey.Spec (flat)
open Color (bs)
open Spec

/-- Every text is read in exactly one way, and nothing of it is lost. -/
theorem C41_reads (cs : List Nat) : ∃ ss, Reads cs ss ∧ ss.flatMap Seg.chars = cs ∧ ∀ ts, Reads cs ts → ts = ss := by
  obtain ⟨ss, h⟩ := reads_exists cs
  exact ⟨ss, h, reads_chars h, fun ts ht => reads_unique ht h⟩

/-- The references to defined variables are replaced by their values, and everything else is left as it is; the function
says whether it has replaced anything. -/
theorem C41_text (env : Nat → List Nat → Option (List Nat)) {cs : List Nat} {ss : List Seg} (ht : ∀ c ∈ cs, IsText c)
    (h : Reads cs ss) (p : Option Int) :
    (expandEnv env (flat cs) p).out = result env 0 ss ∧ ((expandEnv env (flat cs) p).expanded = true ↔ Any env 0 ss) := by
  rw [expand_spec h ht]
  exact ⟨rfl, anyFrom_iff 0 ss⟩

/-- Without a reference to a defined variable nothing changes. -/
theorem C41_undefined (env : Nat → List Nat → Option (List Nat)) {cs : List Nat} {ss : List Seg} (ht : ∀ c ∈ cs, IsText c)
    (h : Reads cs ss) (hn : ¬ Any env 0 ss) (p : Option Int) :
    expandEnv env (flat cs) p = { out := flat cs, expanded := false, point := p } := by
  rw [expand_spec h ht, result_none hn, reads_chars h]
  have : anyFrom env 0 ss = false := by
    cases hb : anyFrom env 0 ss with
    | false => rfl
    | true => exact absurd ((anyFrom_iff 0 ss).1 hb) hn
  rw [this]
  cases p <;> simp [pointFrom_none hn]

/-- A text without a percent sign does not change. -/
theorem C41_plain (env : Nat → List Nat → Option (List Nat)) {cs : List Nat} (ht : ∀ c ∈ cs, IsText c) (h : 37 ∉ cs)
    (p : Option Int) : expandEnv env (flat cs) p = { out := flat cs, expanded := false, point := p } := by
  refine C41_undefined env ht (reads_plain h) ?_ p
  rw [← anyFrom_iff, anyFrom_chars]
  simp

/-- A cursor that is not after the beginning of a replaced reference stays where it is. -/
theorem C41_before (env : Nat → List Nat → Option (List Nat)) {cs : List Nat} {pre post : List Seg} (ht : ∀ c ∈ cs, IsText c)
    (h : Reads cs (pre ++ post)) (hn : ¬ Any env 0 pre) {p : Int} (hp : p ≤ size pre) :
    (expandEnv env (flat cs) (some p)).point = some p := by
  rw [expand_spec h ht]
  simp only [Option.map_some, Option.some.injEq]
  rw [pointFrom_append, pointFrom_none hn, pointFrom_before _ _ (by omega)]

/-- If no replaced reference but the last one changes its length, the cursor goes where it should.  (In particular if only
one reference is replaced.  `C41_cursor_fails` is about the other cases.) -/
theorem C41_cursor (env : Nat → List Nat → Option (List Nat)) {cs : List Nat} {pre post : List Seg} {s : Seg}
    (ht : ∀ c ∈ cs, IsText c) (h : Reads cs (pre ++ s :: post)) (hs : Same env 0 pre) (hn : ¬ Any env (size (pre ++ [s])) post)
    (p : Nat) :
    (expandEnv env (flat cs) (some p)).point = some (cursor env 0 (pre ++ s :: post) p : Int) := by
  rw [expand_spec h ht]
  simp only [Option.map_some, Option.some.injEq]
  have := pointFrom_cursor (env := env) (k := 0) hs (by rwa [Nat.zero_add]) p
  simpa using this

/-- And then a cursor in the text is in the expanded text. -/
theorem C41_inside (env : Nat → List Nat → Option (List Nat)) {cs : List Nat} {pre post : List Seg} {s : Seg}
    (ht : ∀ c ∈ cs, IsText c) (h : Reads cs (pre ++ s :: post)) (hs : Same env 0 pre) (hn : ¬ Any env (size (pre ++ [s])) post)
    {p : Nat} (hp : p ≤ (flat cs).length) :
    ∃ q : Nat, (expandEnv env (flat cs) (some p)).point = some (q : Int) ∧ q ≤ (expandEnv env (flat cs) (some p)).out.length := by
  refine ⟨_, C41_cursor env ht h hs hn p, ?_⟩
  rw [(C41_text env ht h (some p)).1]
  apply cursor_le
  rwa [size_flat, reads_chars h]

/-- The cursor never becomes negative. -/
theorem C41_nonneg (env : Nat → List Nat → Option (List Nat)) {cs : List Nat} (ht : ∀ c ∈ cs, IsText c) {p : Int} (hp : 0 ≤ p) :
    ∃ q : Nat, (expandEnv env (flat cs) (some p)).point = some (q : Int) := by
  obtain ⟨ss, h⟩ := reads_exists cs
  rw [expand_spec h ht]
  have := pointFrom_nonneg (env := env) 0 ss hp
  exact ⟨(pointFrom env 0 ss p).toNat, by simp only [Option.map_some, Option.some.injEq]; omega⟩

/-- In the command that expands the line the cursor is in the text afterwards, and where `expand_env` puts it if that is in
the text. -/
theorem C41_line (env : Nat → List Nat → Option (List Nat)) (l : List Nat) (p : Option Int) :
    lineCursor (expandEnv env l p) ≤ (expandEnv env l p).out.length ∧
      ∀ q : Nat, (expandEnv env l p).point = some (q : Int) → q ≤ (expandEnv env l p).out.length → lineCursor (expandEnv env l p) = q := by
  unfold lineCursor
  constructor
  · split
    · split <;> omega
    · omega
  · intro q hq hle
    rw [hq]
    simp only
    rw [if_pos ⟨by omega, by omega⟩]
    rfl

/-! The variables. -/

/-- A variable that is set has its value, whatever its name. -/
theorem C41_set (os : Os) {name : List Nat} (ht : ∀ c ∈ name, IsText c) (h37 : 37 ∉ name) (h0 : name ≠ []) {v : List Nat}
    (hv : os.var (flat name) = some v) :
    (expandEnv (getEnv os) (flat (37 :: (name ++ [37]))) none).out = v := by
  have hr : Reads (37 :: (name ++ [37])) [.ref name] := .ref h37 h0 .nil
  rw [(C41_text _ (by intro c hc; simp at hc; rcases hc with rfl | hc | rfl <;> first | decide | exact ht c hc) hr none).1]
  simp [result, Seg.value, getEnv, hv]

/-- The variables that have a value although they are not set, whatever the case of their names. -/
theorem C41_pseudo (os : Os) {name : List Nat} (h0 : os.var name = none) (k : Nat) :
    (name.map Color.lower = bs "home" →
      (∀ a b, os.var (bs "HOMEDRIVE") = some a → os.var (bs "HOMEPATH") = some b → getEnv os k name = some (a ++ b)) ∧
      (os.var (bs "HOMEDRIVE") = none ∨ os.var (bs "HOMEPATH") = none → getEnv os k name = os.var (bs "USERPROFILE"))) ∧
    (name.map Color.lower = bs "errorlevel" → getEnv os k name = some os.errorlevel) ∧
    (name.map Color.lower = bs "cd" → getEnv os k name = some os.cwd) ∧
    (name.map Color.lower = bs "random" → getEnv os k name = some (os.rand k)) ∧
    (name.map Color.lower = bs "cmdcmdline" → getEnv os k name = some os.cmdline) ∧
    (name.map Color.lower ∉ [bs "home", bs "errorlevel", bs "cd", bs "random", bs "cmdcmdline"] → getEnv os k name = none) := by
  have e1 : (bs "HOME").map Color.lower = bs "home" := by decide +kernel
  have e2 : (bs "ERRORLEVEL").map Color.lower = bs "errorlevel" := by decide +kernel
  have e3 : (bs "CD").map Color.lower = bs "cd" := by decide +kernel
  have e4 : (bs "RANDOM").map Color.lower = bs "random" := by decide +kernel
  have e5 : (bs "CMDCMDLINE").map Color.lower = bs "cmdcmdline" := by decide +kernel
  have n12 : (bs "errorlevel" == bs "home") = false := by decide +kernel
  have n13 : (bs "cd" == bs "home") = false := by decide +kernel
  have n14 : (bs "random" == bs "home") = false := by decide +kernel
  have n15 : (bs "cmdcmdline" == bs "home") = false := by decide +kernel
  have n23 : (bs "cd" == bs "errorlevel") = false := by decide +kernel
  have n24 : (bs "random" == bs "errorlevel") = false := by decide +kernel
  have n25 : (bs "cmdcmdline" == bs "errorlevel") = false := by decide +kernel
  have n34 : (bs "random" == bs "cd") = false := by decide +kernel
  have n35 : (bs "cmdcmdline" == bs "cd") = false := by decide +kernel
  have n45 : (bs "cmdcmdline" == bs "random") = false := by decide +kernel
  unfold getEnv Settings.same
  rw [h0, e1, e2, e3, e4, e5]
  refine ⟨?_, ?_, ?_, ?_, ?_, ?_⟩ <;> intro h
  · rw [h]; simp only [beq_self_eq_true, if_true]
    refine ⟨fun a b ha hb => by rw [ha, hb], ?_⟩
    rintro (hn | hn)
    · rw [hn]
    · rw [hn]; cases os.var (bs "HOMEDRIVE") <;> rfl
  · rw [h]; simp [n12]
  · rw [h]; simp [n13, n23]
  · rw [h]; simp [n14, n24, n34]
  · rw [h]; simp [n15, n25, n35, n45]
  · simp only [List.mem_cons, List.not_mem_nil, or_false, not_or] at h
    obtain ⟨h1, h2, h3, h4, h5⟩ := h
    simp [h1, h2, h3, h4, h5]

/-! Examples. -/

/-- `A` is `x`, `LONG` is `abcdefgh`. -/
def exEnv : Nat → List Nat → Option (List Nat) := fun _ n =>
  if n = bs "A" then some (bs "x") else if n = bs "LONG" then some (bs "abcdefgh") else none

/-- The property as first stated is false: with two references the cursor can be outside the expanded text. -/
theorem C41_cursor_fails : ∃ (env : Nat → List Nat → Option (List Nat)) (cs : List Nat) (p q : Nat), (∀ c ∈ cs, IsText c) ∧
    p ≤ (flat cs).length ∧ (expandEnv env (flat cs) (some p)).point = some (q : Int) ∧
    (expandEnv env (flat cs) (some p)).out.length < q :=
  ⟨exEnv, bs "%A%%A%", 6, 4, by decide +kernel⟩

/-- Or in the text but in the wrong place: the cursor was right behind the first reference, and is put two characters to the
right of the end of its value. -/
theorem C41_cursor_wrong : ∃ (env : Nat → List Nat → Option (List Nat)) (cs : List Nat) (ss : List Seg) (p q : Nat),
    (∀ c ∈ cs, IsText c) ∧ Reads cs ss ∧ p ≤ (flat cs).length ∧ (expandEnv env (flat cs) (some p)).point = some (q : Int) ∧
    q ≤ (expandEnv env (flat cs) (some p)).out.length ∧ cursor env 0 ss p ≠ q := by
  refine ⟨exEnv, bs "%LONG%_%LONG%", [.ref (bs "LONG"), .char 95, .ref (bs "LONG")], 6, 15, by decide +kernel, ?_, by decide +kernel⟩
  have e : bs "%LONG%_%LONG%" = 37 :: (bs "LONG" ++ 37 :: 95 :: 37 :: (bs "LONG" ++ 37 :: [])) := by decide +kernel
  rw [e]
  exact .ref (by decide +kernel) (by decide +kernel) (.char (by decide) (.ref (by decide +kernel) (by decide +kernel) .nil))

/-- `a%A%%B%%%A%100%`: `B` is not defined, and the last percent signs stand for themselves. -/
example : expandEnv exEnv (bs "a%A%%B%%%A%100%") (some 2) = ⟨bs "ax%B%%x100%", true, some 2⟩ := by decide +kernel
example : Reads (bs "a%A%%B%%%A%100%")
    [.char 97, .ref (bs "A"), .ref (bs "B"), .char 37, .ref (bs "A"), .char 49, .char 48, .char 48, .char 37] := by
  have e : bs "a%A%%B%%%A%100%" = 97 :: 37 :: (bs "A" ++ 37 :: 37 :: (bs "B" ++ 37 :: 37 :: 37 :: (bs "A" ++ 37 :: 49 :: 48 :: 48 :: [37]))) := by
    decide +kernel
  rw [e]
  exact .char (by decide) (.ref (by decide +kernel) (by decide +kernel) (.ref (by decide +kernel) (by decide +kernel)
    (.double (.ref (by decide +kernel) (by decide +kernel) (.char (by decide) (.char (by decide) (.char (by decide) (.last (by decide)))))))))
/-- The hypotheses of `C41_cursor`: a reference before the last replaced one that is not defined, and the cursor after all
of them. -/
example : Same exEnv 0 [.ref (bs "B"), .char 32] ∧ ¬ Any exEnv (size ([.ref (bs "B"), .char 32] ++ [.ref (bs "LONG")])) [.char 33] ∧
    expandEnv exEnv (bs "%B% %LONG%!") (some 11) = ⟨bs "%B% abcdefgh!", true, some 13⟩ := by
  refine ⟨?_, by rw [← anyFrom_iff]; decide +kernel, by decide +kernel⟩
  intro pre s post v he hv
  have : ∀ t ∈ [Seg.ref (bs "B"), .char 32], ∀ k, t.value exEnv k = none := by
    intro t ht k
    simp only [List.mem_cons, List.not_mem_nil, or_false] at ht
    rcases ht with rfl | rfl
    · rw [Seg.value]; show exEnv 0 (flat (bs "B")) = none; decide +kernel
    · rfl
  rw [this s (by rw [he]; simp)] at hv
  exact absurd hv (by simp)
/-- A cursor in a reference goes to the end of the value. -/
example : cursor exEnv 0 [.char 32, .ref (bs "LONG"), .char 33] 3 = 9 := by decide +kernel
example : lineCursor (expandEnv exEnv (bs "%A%%A%") (some 6)) = 2 := by decide +kernel
example : getEnv ⟨fun n => if n = bs "HOMEDRIVE" then some (bs "C:") else if n = bs "HOMEPATH" then some (bs "\\u") else none,
    [], [], fun _ => [], []⟩ 0 (bs "Home") = some (bs "C:\\u") := by decide +kernel

end Clink.EnvExpand
