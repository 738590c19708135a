import Verif.Proof.Doskey
import Verif.Model.EnvExpand
import Verif.Spec.EnvExpand

/-!
Proofs about the expansion of environment variables.
-/

namespace Clink.EnvExpand

open Utf (IsText specUtf8 more)
open Doskey (peek next between flat_cons flat_nil flat_append more_flat peek_flat next_flat spec_ascii)
open Doskey.Spec (flat)
open Spec

abbrev Env := Nat → List Nat → Option (List Nat)

variable {env : Env}

theorem percentText : IsText 37 := by decide
theorem flat_percent (cs : List Nat) : flat (37 :: cs) = 37 :: flat cs := by rw [flat_cons, spec_ascii (by decide)]; rfl

theorem toPercent_char {c : Nat} (hc : IsText c) (h : c ≠ 37) (l : List Nat) : toPercent (specUtf8 c ++ l) = toPercent l := by
  rw [toPercent, dif_pos (more_flat hc _), peek_flat hc, if_neg h, next_flat hc]

theorem more_percent (l : List Nat) : more (37 :: l) = true := rfl
theorem peek_percent (l : List Nat) : peek (37 :: l) = 37 := by
  have := peek_flat percentText l; rwa [spec_ascii (by decide)] at this
theorem next_percent (l : List Nat) : next (37 :: l) = l := by
  have := next_flat percentText l; rwa [spec_ascii (by decide)] at this

theorem toPercent_percent (l : List Nat) : toPercent (37 :: l) = 37 :: l := by
  rw [toPercent, dif_pos (more_percent l), peek_percent, if_pos rfl]

theorem toPercent_nil : toPercent [] = [] := by rw [toPercent]; rfl

theorem toPercent_name {name : List Nat} (h : ∀ c ∈ name, IsText c) (h37 : 37 ∉ name) (l : List Nat) :
    toPercent (flat name ++ l) = toPercent l := by
  induction name with
  | nil => rfl
  | cons c cs ih =>
    simp only [List.mem_cons, not_or, forall_eq_or_imp] at h h37
    rw [flat_cons, List.append_assoc, toPercent_char h.1 (Ne.symm h37.1), ih h.2 h37.2]

theorem toPercent_last {cs : List Nat} (h : ∀ c ∈ cs, IsText c) (h37 : 37 ∉ cs) : toPercent (flat cs) = [] := by
  have := toPercent_name h h37 []
  rwa [List.append_nil, toPercent_nil] at this

theorem between_pre (a b : List Nat) : between (a ++ b) b = a := by
  simp [between]

theorem toPercent_suffix (l : List Nat) : toPercent l <:+ l := by
  fun_induction toPercent l with
  | case1 => exact List.suffix_refl _
  | case2 l h h1 ih => exact ih.trans (Doskey.next_suffix l)
  | case3 => exact List.suffix_refl _

theorem loop_nil (n : Nat) (r : Res) : loop env n [] r = r := by
  rw [loop, if_neg (by decide)]

theorem loop_char {n c : Nat} (hc : IsText c) (h : c ≠ 37) {cs : List Nat} (hcs : ∀ c ∈ cs, IsText c) (r : Res) :
    loop env n (specUtf8 c ++ flat cs) r = loop env n (flat cs) { r with out := r.out ++ specUtf8 c } := by
  conv => lhs; rw [loop, if_pos (more_flat hc _)]
  obtain ⟨u, hu⟩ := toPercent_suffix (flat cs)
  have hb : between (specUtf8 c ++ flat cs) (toPercent (flat cs)) = specUtf8 c ++ between (flat cs) (toPercent (flat cs)) := by
    generalize toPercent (flat cs) = t at hu
    rw [← hu, ← List.append_assoc, between_pre, between_pre]
  simp only [toPercent_char hc h, hb]
  by_cases hm : more (flat cs) = true
  · conv => rhs; rw [loop, if_pos hm]
    simp only [List.append_assoc]
  · have h0 : flat cs = [] := by
      cases cs with
      | nil => rfl
      | cons d ds => rw [flat_cons] at hm; exact absurd (more_flat (hcs d (by simp)) _) hm
    rw [h0, toPercent_nil, loop_nil, dif_neg (by decide)]
    simp [between]

theorem loop_last {n : Nat} {cs : List Nat} (hcs : ∀ c ∈ cs, IsText c) (h : 37 ∉ cs) (r : Res) :
    loop env n (37 :: flat cs) r = { r with out := r.out ++ 37 :: flat cs } := by
  rw [loop, if_pos (more_percent _)]
  simp only [toPercent_percent, more_percent, dite_true, next_percent, toPercent_last hcs h]
  rw [dif_neg (by simp [more])]
  rw [loop_nil]
  simp [between]

theorem loop_double {n : Nat} (l : List Nat) (r : Res) :
    loop env n (37 :: 37 :: l) r = loop env n (37 :: l) { r with out := r.out ++ [37] } := by
  conv => lhs; rw [loop, if_pos (more_percent _)]
  simp only [toPercent_percent, more_percent, dite_true, next_percent]
  rw [dif_neg (by simp [between])]
  simp [between]

theorem loop_ref {n : Nat} {name cs : List Nat} (hn : ∀ c ∈ name, IsText c) (h37 : 37 ∉ name) (h0 : name ≠ []) (r : Res) :
    loop env n (37 :: (flat name ++ 37 :: flat cs)) r =
      match env (n - (37 :: (flat name ++ 37 :: flat cs)).length) (flat name) with
      | some v => loop env n (flat cs)
          { out := r.out ++ v, expanded := true
            point := r.point.map (movePoint (n - (37 :: (flat name ++ 37 :: flat cs)).length) (n - (flat cs).length) v) }
      | none => loop env n (flat cs) { r with out := r.out ++ 37 :: (flat name ++ [37]) } := by
  have hf : flat name ≠ [] := by
    cases name with
    | nil => exact absurd rfl h0
    | cons d ds =>
      rw [flat_cons]
      intro he
      have := more_flat (hn d (by simp)) (flat ds)
      rw [he] at this
      exact absurd this (by decide)
  conv => lhs; rw [loop, if_pos (more_percent _)]
  simp only [toPercent_percent, more_percent, dite_true, next_percent, toPercent_name hn h37, between_pre, peek_percent]
  rw [dif_pos ⟨trivial, trivial, hf⟩]
  have ht : (37 :: (flat name ++ 37 :: flat cs)).take ((37 :: (flat name ++ 37 :: flat cs)).length - (37 :: flat cs).length + 1)
      = 37 :: (flat name ++ [37]) := by
    have : (37 :: (flat name ++ 37 :: flat cs)).length - (37 :: flat cs).length + 1 = (37 :: (flat name ++ [37])).length := by
      simp; omega
    rw [this, show 37 :: (flat name ++ 37 :: flat cs) = (37 :: (flat name ++ [37])) ++ flat cs by simp, List.take_left]
  simp only [ht]
  have hb : between (37 :: (flat name ++ 37 :: flat cs)) (37 :: (flat name ++ 37 :: flat cs)) = [] := by simp [between]
  simp only [hb, List.append_nil]
  cases env (n - (37 :: (flat name ++ 37 :: flat cs)).length) (flat name) <;> rfl

/-- What the code makes of the cursor. -/
def pointFrom (env : Env) : Nat → List Seg → Int → Int
  | _, [], p => p
  | k, s :: ss, p =>
    pointFrom env (k + s.bytes.length) ss (match s.value env k with
      | some v => movePoint k (k + s.bytes.length) v p
      | none => p)

/-- Is anything replaced? -/
def anyFrom (env : Env) : Nat → List Seg → Bool
  | _, [] => false
  | k, s :: ss => (s.value env k).isSome || anyFrom env (k + s.bytes.length) ss

theorem reads_chars {cs : List Nat} {ss : List Seg} (h : Reads cs ss) : ss.flatMap Seg.chars = cs := by
  induction h with
  | nil => rfl
  | char _ _ ih => simp [Seg.chars, ih]
  | ref _ _ _ ih => simp [Seg.chars, ih]
  | last _ => simp [Seg.chars, List.flatMap_map]
  | double _ ih => simp [Seg.chars, ih]

theorem size_cons (s : Seg) (ss : List Seg) : size (s :: ss) = s.bytes.length + size ss := by simp [size]
theorem size_append (a b : List Seg) : size (a ++ b) = size a + size b := by simp [size]

theorem size_flat (ss : List Seg) : size ss = (flat (ss.flatMap Seg.chars)).length := by
  induction ss with
  | nil => rfl
  | cons s ss ih => rw [size_cons, List.flatMap_cons, flat_append, List.length_append, ih]; rfl

theorem result_chars (k : Nat) (cs : List Nat) : result env k (cs.map .char) = flat cs := by
  induction cs generalizing k with
  | nil => rfl
  | cons c cs ih =>
    rw [List.map_cons, result, ih, flat_cons]
    simp [Seg.value, Seg.bytes, Seg.chars, flat]

theorem pointFrom_chars (k : Nat) (cs : List Nat) (p : Int) : pointFrom env k (cs.map .char) p = p := by
  induction cs generalizing k with
  | nil => rfl
  | cons c cs ih => rw [List.map_cons, pointFrom]; exact ih _

theorem anyFrom_chars (k : Nat) (cs : List Nat) : anyFrom env k (cs.map .char) = false := by
  induction cs generalizing k with
  | nil => rfl
  | cons c cs ih => rw [List.map_cons, anyFrom, ih]; rfl

theorem loop_spec {cs : List Nat} {ss : List Seg} (h : Reads cs ss) (ht : ∀ c ∈ cs, IsText c) (n k : Nat)
    (hk : n = k + (flat cs).length) (r : Res) :
    loop env n (flat cs) r =
      { out := r.out ++ result env k ss, expanded := r.expanded || anyFrom env k ss, point := r.point.map (pointFrom env k ss) } := by
  induction h generalizing k r with
  | nil =>
    rw [flat_nil, loop_nil]
    cases r with | mk o e p => cases p <;> simp [result, anyFrom, pointFrom]
  | @char c cs ss h1 h2 ih =>
    simp only [List.mem_cons, forall_eq_or_imp] at ht
    rw [flat_cons, loop_char ht.1 h1 ht.2, ih ht.2 (k + (specUtf8 c).length) (by rw [hk, flat_cons, List.length_append]; omega)]
    have : (Seg.char c).bytes = specUtf8 c := by simp [Seg.bytes, Seg.chars, flat]
    simp only [result, anyFrom, pointFrom, Seg.value, this, Option.getD_none, List.append_assoc, Option.isSome_none, Bool.false_or]
  | @ref name cs ss h1 h2 h3 ih =>
    have hn : ∀ c ∈ name, IsText c := fun c hc => ht c (by simp [hc])
    have hcs : ∀ c ∈ cs, IsText c := fun c hc => ht c (by simp [hc])
    have hfl : flat (37 :: (name ++ 37 :: cs)) = 37 :: (flat name ++ 37 :: flat cs) := by
      rw [flat_percent, flat_append, flat_percent]
    have hb : (Seg.ref name).bytes = 37 :: (flat name ++ [37]) := by
      rw [Seg.bytes, Seg.chars, flat_percent, flat_append, flat_percent]; rfl
    rw [hfl] at hk
    have hk0 : n - (37 :: (flat name ++ 37 :: flat cs)).length = k := by omega
    have hk1 : n = k + (Seg.ref name).bytes.length + (flat cs).length := by
      rw [hk, hb]; simp; omega
    have hk2 : n - (flat cs).length = k + (Seg.ref name).bytes.length := by omega
    rw [hfl, loop_ref hn h1 h2, hk0, hk2]
    simp only [result, anyFrom, pointFrom, Seg.value]
    cases hv : env k (flat name) with
    | some v =>
      simp only
      rw [ih hcs _ hk1]
      simp only [Option.getD_some, List.append_assoc, Option.isSome_some, Bool.true_or, Bool.or_true, Option.map_map]
      congr 1
    | none =>
      simp only
      rw [ih hcs _ hk1, hb]
      simp only [Option.getD_none, List.append_assoc, Option.isSome_none, Bool.false_or]
  | @last cs h1 =>
    have hcs : ∀ c ∈ cs, IsText c := fun c hc => ht c (by simp [hc])
    rw [flat_percent, loop_last hcs h1, ← List.map_cons (f := Seg.char), result_chars, anyFrom_chars, flat_percent]
    have hp := fun p => pointFrom_chars (env := env) k (37 :: cs) p
    rw [List.map_cons] at hp
    cases r with | mk o e p => cases p <;> simp [hp]
  | @double cs ss h1 ih =>
    have hcs : ∀ c ∈ 37 :: cs, IsText c := fun c hc => ht c (List.mem_cons_of_mem _ hc)
    rw [flat_percent, flat_percent, loop_double, ← flat_percent, ih hcs (k + 1) (by rw [hk, flat_percent (37 :: cs)]; simp; omega)]
    have : (Seg.char 37).bytes = [37] := by decide
    simp only [result, anyFrom, pointFrom, Seg.value, this, Option.getD_none, List.append_assoc, Option.isSome_none, Bool.false_or,
      List.length_singleton]

theorem expand_spec {cs : List Nat} {ss : List Seg} (h : Reads cs ss) (ht : ∀ c ∈ cs, IsText c) (p : Option Int) :
    expandEnv env (flat cs) p = { out := result env 0 ss, expanded := anyFrom env 0 ss, point := p.map (pointFrom env 0 ss) } := by
  rw [expandEnv, loop_spec h ht _ 0 (by simp)]
  simp

theorem anyFrom_iff (k : Nat) (ss : List Seg) : anyFrom env k ss = true ↔ Any env k ss := by
  induction ss generalizing k with
  | nil =>
    simp only [anyFrom, Bool.false_eq_true, false_iff]
    rintro ⟨pre, s, post, h, -⟩
    simp at h
  | cons s ss ih =>
    rw [anyFrom, Bool.or_eq_true, ih]
    constructor
    · rintro (h | ⟨pre, t, post, rfl, h⟩)
      · exact ⟨[], s, ss, rfl, by simpa [size, Option.isSome_iff_ne_none] using h⟩
      · exact ⟨s :: pre, t, post, rfl, by rwa [size_cons, ← Nat.add_assoc]⟩
    · rintro ⟨pre, t, post, h, hv⟩
      cases pre with
      | nil =>
        simp only [List.nil_append, List.cons.injEq] at h
        obtain ⟨rfl, rfl⟩ := h
        left
        simpa [size, Option.isSome_iff_ne_none] using hv
      | cons q pre =>
        simp only [List.cons_append, List.cons.injEq] at h
        obtain ⟨rfl, rfl⟩ := h
        right
        exact ⟨pre, t, post, rfl, by rwa [size_cons, ← Nat.add_assoc] at hv⟩

theorem not_any_cons {k : Nat} {s : Seg} {ss : List Seg} (h : ¬ Any env k (s :: ss)) :
    s.value env k = none ∧ ¬ Any env (k + s.bytes.length) ss := by
  rw [← anyFrom_iff, anyFrom, Bool.or_eq_true, not_or, anyFrom_iff] at h
  exact ⟨by simpa using h.1, h.2⟩

theorem result_none {k : Nat} {ss : List Seg} (h : ¬ Any env k ss) : result env k ss = flat (ss.flatMap Seg.chars) := by
  induction ss generalizing k with
  | nil => rfl
  | cons s ss ih =>
    obtain ⟨h1, h2⟩ := not_any_cons h
    rw [result, h1, ih h2, List.flatMap_cons, flat_append]; rfl

theorem pointFrom_none {k : Nat} {ss : List Seg} (h : ¬ Any env k ss) (p : Int) : pointFrom env k ss p = p := by
  induction ss generalizing k with
  | nil => rfl
  | cons s ss ih =>
    obtain ⟨h1, h2⟩ := not_any_cons h
    rw [pointFrom, h1, ih h2]

theorem pointFrom_append (k : Nat) (a b : List Seg) (p : Int) :
    pointFrom env k (a ++ b) p = pointFrom env (k + size a) b (pointFrom env k a p) := by
  induction a generalizing k p with
  | nil => rfl
  | cons s a ih => rw [List.cons_append, pointFrom, ih, pointFrom, size_cons, Nat.add_assoc]

theorem result_append (k : Nat) (a b : List Seg) : result env k (a ++ b) = result env k a ++ result env (k + size a) b := by
  induction a generalizing k with
  | nil => rfl
  | cons s a ih => rw [List.cons_append, result, ih, result, size_cons, Nat.add_assoc, List.append_assoc]

/-- A cursor before everything is not moved. -/
theorem pointFrom_before (k : Nat) (ss : List Seg) {p : Int} (h : p ≤ k) : pointFrom env k ss p = p := by
  induction ss generalizing k with
  | nil => rfl
  | cons s ss ih =>
    have hm : (match s.value env k with | some v => movePoint k (k + s.bytes.length) v p | none => p) = p := by
      cases s.value env k with
      | none => rfl
      | some v => simp only [movePoint]; rw [if_neg (by omega)]
    rw [pointFrom, hm]
    exact ih _ (by omega)

theorem movePoint_nonneg {a b : Nat} {v : List Nat} {p : Int} (h : 0 ≤ p) : 0 ≤ movePoint a b v p := by
  unfold movePoint
  split
  · split <;> omega
  · exact h

theorem pointFrom_nonneg (k : Nat) (ss : List Seg) {p : Int} (h : 0 ≤ p) : 0 ≤ pointFrom env k ss p := by
  induction ss generalizing k p with
  | nil => exact h
  | cons s ss ih =>
    rw [pointFrom]
    apply ih
    cases s.value env k with
    | none => exact h
    | some v => exact movePoint_nonneg h

theorem cursor_zero (k : Nat) (ss : List Seg) : cursor env k ss 0 = 0 := by
  cases ss <;> simp [cursor]

theorem same_cons {k : Nat} {s : Seg} {ss : List Seg} (h : Same env k (s :: ss)) :
    (∀ v, s.value env k = some v → v.length = s.bytes.length) ∧ Same env (k + s.bytes.length) ss := by
  constructor
  · intro v hv
    exact h [] s ss v rfl (by simpa [size] using hv)
  · intro pre t post v he hv
    subst he
    exact h (s :: pre) t post v rfl (by rwa [size_cons, ← Nat.add_assoc])

theorem same_result {k : Nat} {ss : List Seg} (h : Same env k ss) : (result env k ss).length = size ss := by
  induction ss generalizing k with
  | nil => rfl
  | cons s ss ih =>
    obtain ⟨h1, h2⟩ := same_cons h
    rw [result, List.length_append, ih h2, size_cons]
    cases hv : s.value env k with
    | none => rfl
    | some v => simp [h1 v hv]

theorem cursor_none {k : Nat} {ss : List Seg} (h : ¬ Any env k ss) (p : Nat) : cursor env k ss p = p := by
  induction ss generalizing k p with
  | nil => rfl
  | cons s ss ih =>
    obtain ⟨h1, h2⟩ := not_any_cons h
    rw [cursor, h1, ih h2]
    simp only [Option.getD_none]
    split
    · omega
    · split <;> omega

/-- If nothing but the last replaced reference changes its length, the cursor goes where it should. -/
theorem pointFrom_cursor {k : Nat} {pre post : List Seg} {s : Seg} (h1 : Same env k pre)
    (h2 : ¬ Any env (k + size (pre ++ [s])) post) (p : Nat) :
    pointFrom env k (pre ++ s :: post) ((k + p : Nat) : Int) = ((k + cursor env k (pre ++ s :: post) p : Nat) : Int) := by
  induction pre generalizing k p with
  | nil =>
    rw [List.nil_append, size_cons, show size ([] : List Seg) = 0 from rfl, Nat.add_zero] at h2
    rw [List.nil_append, pointFrom, cursor, pointFrom_none h2, cursor_none h2]
    cases s.value env k with
    | none =>
      simp only [Option.getD_none]
      split
      · omega
      · split <;> omega
    | some v =>
      simp only [Option.getD_some, movePoint]
      split
      · split
        · rw [if_neg (by omega), if_pos (by omega)]; omega
        · rw [if_neg (by omega), if_neg (by omega)]; omega
      · rw [if_pos (by omega)]; omega
  | cons t pre ih =>
    obtain ⟨h3, h4⟩ := same_cons h1
    rw [List.cons_append, size_cons, ← Nat.add_assoc] at h2
    rw [List.cons_append, pointFrom, cursor]
    by_cases hp : p ≤ t.bytes.length
    · -- within the first part: nothing later moves it
      have hm : ∃ q : Nat, (match t.value env k with
          | some v => movePoint k (k + t.bytes.length) v ((k + p : Nat) : Int)
          | none => ((k + p : Nat) : Int)) = (q : Int) ∧ q ≤ k + t.bytes.length ∧
          q = k + (if p = 0 then 0 else match t.value env k with | some v => v.length | none => p) := by
        cases hv : t.value env k with
        | none => exact ⟨k + p, rfl, by omega, by simp only; split <;> omega⟩
        | some v =>
          have := h3 v hv
          by_cases h0 : p = 0
          · refine ⟨k, ?_, by omega, by rw [if_pos h0]; rfl⟩
            simp only [movePoint]; rw [if_neg (by omega)]; omega
          · refine ⟨k + v.length, ?_, by omega, by rw [if_neg h0]⟩
            simp only [movePoint]; rw [if_pos (by omega), if_pos (by omega)]; omega
      obtain ⟨q, hq, hle, he⟩ := hm
      rw [hq, pointFrom_before _ _ (by omega), he]
      simp only [hp, if_true]
      cases t.value env k <;> rfl
    · rw [if_neg (by omega), if_neg hp]
      have hm : (match t.value env k with
          | some v => movePoint k (k + t.bytes.length) v ((k + p : Nat) : Int)
          | none => ((k + p : Nat) : Int)) = ((k + t.bytes.length + (p - t.bytes.length) : Nat) : Int) := by
        cases hv : t.value env k with
        | none => simp only; omega
        | some v =>
          have := h3 v hv
          simp only [movePoint]
          rw [if_pos (by omega), if_neg (by omega)]; omega
      have hl : ((t.value env k).getD t.bytes).length = t.bytes.length := by
        cases hv : t.value env k with
        | none => rfl
        | some v => exact h3 v hv
      rw [hm, ih h4 h2, hl]
      omega

theorem cursor_le {k : Nat} (ss : List Seg) {p : Nat} (h : p ≤ size ss) : cursor env k ss p ≤ (result env k ss).length := by
  induction ss generalizing k p with
  | nil => simpa [cursor, result, size] using h
  | cons s ss ih =>
    rw [cursor, result, List.length_append]
    rw [size_cons] at h
    split
    · omega
    · split
      · cases s.value env k <;> simp <;> omega
      · have := @ih (k + s.bytes.length) (p - s.bytes.length) (by omega)
        omega

/-- Every text can be read. -/
theorem reads_exists (cs : List Nat) : ∃ ss, Reads cs ss := by
  suffices h : ∀ n, ∀ cs : List Nat, cs.length ≤ n → ∃ ss, Reads cs ss from h _ cs (Nat.le_refl _)
  intro n
  induction n with
  | zero =>
    intro cs hcs
    have : cs = [] := List.length_eq_zero_iff.mp (by omega)
    exact ⟨[], this ▸ .nil⟩
  | succ n ih =>
    intro cs hcs
    cases cs with
    | nil => exact ⟨[], .nil⟩
    | cons c cs =>
      simp only [List.length_cons] at hcs
      by_cases hc : c = 37
      · subst hc
        by_cases hp : 37 ∈ cs
        · obtain ⟨a, b, rfl, ha⟩ : ∃ a b, cs = a ++ 37 :: b ∧ 37 ∉ a := by
            exact List.eq_append_cons_of_mem hp
          cases a with
          | nil =>
            obtain ⟨ss, hs⟩ := ih (37 :: b) (by simp at hcs ⊢; omega)
            exact ⟨_, .double hs⟩
          | cons d a =>
            obtain ⟨ss, hs⟩ := ih b (by simp at hcs; omega)
            exact ⟨_, .ref ha (by simp) hs⟩
        · exact ⟨_, .last hp⟩
      · obtain ⟨ss, hs⟩ := ih cs (by omega)
        exact ⟨_, .char hc hs⟩

theorem split_unique {a b c d : List Nat} (ha : 37 ∉ a) (hc : 37 ∉ c) (h : a ++ 37 :: b = c ++ 37 :: d) : a = c ∧ b = d := by
  induction a generalizing c with
  | nil =>
    cases c with
    | nil => simpa using h
    | cons x c => simp only [List.nil_append, List.cons_append, List.cons.injEq] at h; exact absurd (h.1 ▸ List.mem_cons_self) hc
  | cons x a ih =>
    cases c with
    | nil => simp only [List.nil_append, List.cons_append, List.cons.injEq] at h; exact absurd (h.1 ▸ List.mem_cons_self) ha
    | cons y c =>
      simp only [List.cons_append, List.cons.injEq] at h
      obtain ⟨h1, h2⟩ := ih (fun hm => ha (List.mem_cons_of_mem _ hm)) (fun hm => hc (List.mem_cons_of_mem _ hm)) h.2
      exact ⟨by rw [h.1, h1], h2⟩

/-- In only one way. -/
theorem reads_unique {cs : List Nat} {ss ts : List Seg} (h : Reads cs ss) (h' : Reads cs ts) : ss = ts := by
  induction h generalizing ts with
  | nil => cases h'; rfl
  | @char c cs ss h1 h2 ih =>
    cases h' with
    | char g1 g2 => rw [ih g2]
    | ref => exact absurd rfl h1
    | last => exact absurd rfl h1
    | double => exact absurd rfl h1
  | @ref name cs ss h1 h2 h3 ih =>
    generalize hl : 37 :: (name ++ 37 :: cs) = l at h'
    cases h' with
    | nil => simp at hl
    | char g1 g2 => simp only [List.cons.injEq] at hl; exact absurd hl.1.symm g1
    | @ref name' cs' ss' g1 g2 g3 =>
      simp only [List.cons.injEq, true_and] at hl
      obtain ⟨rfl, rfl⟩ := split_unique h1 g1 hl
      rw [ih g3]
    | last g1 => simp only [List.cons.injEq, true_and] at hl; exact absurd (by rw [← hl]; simp) g1
    | double g1 =>
      simp only [List.cons.injEq, true_and] at hl
      cases name with
      | nil => exact absurd rfl h2
      | cons d n => simp only [List.cons_append, List.cons.injEq] at hl; exact absurd (hl.1 ▸ List.mem_cons_self) h1
  | @last cs h1 =>
    generalize hl : 37 :: cs = l at h'
    cases h' with
    | nil => simp at hl
    | char g1 g2 => simp only [List.cons.injEq] at hl; exact absurd hl.1.symm g1
    | ref g1 g2 g3 => simp only [List.cons.injEq, true_and] at hl; exact absurd (by rw [hl]; simp) h1
    | last g1 => simp only [List.cons.injEq, true_and] at hl; rw [hl]
    | double g1 => simp only [List.cons.injEq, true_and] at hl; exact absurd (by rw [hl]; simp) h1
  | @double cs ss h1 ih =>
    generalize hl : 37 :: 37 :: cs = l at h'
    cases h' with
    | nil => simp at hl
    | char g1 g2 => simp only [List.cons.injEq] at hl; exact absurd hl.1.symm g1
    | @ref name cs' ss' g1 g2 g3 =>
      simp only [List.cons.injEq, true_and] at hl
      cases name with
      | nil => exact absurd rfl g2
      | cons d n => simp only [List.cons_append, List.cons.injEq] at hl; exact absurd (hl.1 ▸ List.mem_cons_self) g1
    | last g1 => simp only [List.cons.injEq, true_and] at hl; exact absurd (by rw [← hl]; simp) g1
    | double g1 => simp only [List.cons.injEq, true_and] at hl; subst hl; rw [ih g1]

theorem reads_plain {cs : List Nat} (h : 37 ∉ cs) : Reads cs (cs.map .char) := by
  induction cs with
  | nil => exact .nil
  | cons c cs ih =>
    simp only [List.mem_cons, not_or] at h
    exact .char (Ne.symm h.1) (ih h.2)

end Clink.EnvExpand
