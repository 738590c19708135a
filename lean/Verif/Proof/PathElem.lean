import Verif.Proof.PathNorm

/-! The main loop of `normalise` as a fold over the elements of the text. -/

namespace Clink.Path

open StrCompare (isSep)
open Spec

/-- The first element's name. -/
def nameOf (r : List Nat) : List Nat := (afterSeps r).takeWhile (fun c => !isSep c)
/-- What follows the first element's name. -/
def tailOf (r : List Nat) : List Nat := fromSep (afterSeps r)

theorem name_tail (r : List Nat) : nameOf r ++ tailOf r = afterSeps r := List.takeWhile_append_dropWhile

theorem tailOf_le (r : List Nat) : (tailOf r).length ≤ r.length :=
  ((fromSep_suffix _).trans (afterSeps_suffix r)).length_le

/-- The elements of a text, each with whether a separator follows. -/
def elems : List Nat → List (List Nat × Bool)
  | [] => []
  | c :: l => (nameOf (c :: l), !(tailOf (c :: l)).isEmpty) :: elems ((tailOf (c :: l)).drop 1)
termination_by l => l.length
decreasing_by
  simp only [List.length_drop]
  rcases hc : isSep c with _ | _
  · have := tailOf_le (c :: l)
    simp only [List.length_cons] at *
    omega
  · have := tailOf_le (c :: l)
    simp only [List.length_cons] at *
    omega

/-- The name is written after the text so far. -/
def put (sep : Nat) (unc : Bool) (out name : List Nat) (more : Bool) : List Nat :=
  (if unc && out.isEmpty then [sep] else out) ++ name ++ (if more then [sep] else [])

/-- One element on whole lists: text after `start` and `piece_count`. -/
def stepL (sep : Nat) (dots eat unc : Bool) (s : List Nat × Nat) (e : List Nat × Bool) : List Nat × Nat :=
  if dots ∧ e.1 = [46] then s
  else if dots ∧ e.1 = [46, 46] then
    if s.2 ≠ 0 then (pop s.1, uDec s.2)
    else if eat then s else (put sep unc s.1 e.1 e.2, s.2)
  else (put sep unc s.1 e.1 e.2, if dots ∧ e.1.head? = some 46 then s.2 else uInc s.2)

theorem nameOf_noSep {r : List Nat} {c : Nat} (h : c ∈ nameOf r) : isSep c = false := by
  have := List.all_eq_true.1 (List.all_takeWhile (p := fun c => !isSep c) (l := afterSeps r)) c h
  simpa using this

theorem tailOf_head {r : List Nat} {c : Nat} {l : List Nat} (h : tailOf r = c :: l) : isSep c = true := by
  have := List.head?_dropWhile_not (fun c => !isSep c) (afterSeps r)
  unfold tailOf fromSep at h
  rw [h] at this
  simpa using this

theorem map_conv_name (sep : Nat) (r : List Nat) : (nameOf r).map (conv sep) = nameOf r := by
  have : ∀ l : List Nat, (∀ c ∈ l, isSep c = false) → l.map (conv sep) = l := by
    intro l hl
    induction l with
    | nil => rfl
    | cons c l ih =>
      rw [List.map_cons, ih fun d hd => hl d (List.mem_cons_of_mem _ hd)]
      simp [conv, hl c (by simp)]
  exact this _ fun c hc => nameOf_noSep hc

theorem pop_le (out : List Nat) : (pop out).length ≤ out.length := by
  unfold pop
  have := (List.dropWhile_suffix (fun c => !isSep c) (l := out.dropLast.reverse)).length_le
  simp only [List.length_reverse, List.length_dropLast] at *
  omega

theorem pop_prefix (out : List Nat) : pop out <+: out := by
  unfold pop
  have h1 : (out.dropLast.reverse.dropWhile (fun c => !isSep c)).reverse <+: out.dropLast.reverse.reverse :=
    List.reverse_prefix.2 (List.dropWhile_suffix _)
  rw [List.reverse_reverse] at h1
  exact h1.trans (List.dropLast_prefix _)

/-- `unc` needs room for the separator that comes back. -/
def Room (unc : Bool) (out G : List Nat) : Prop := unc = true → out = [] → G ≠ []

theorem put_to (e : Env) {A out G r T : List Nat} (hst : e.start = A.length)
    (hroom : Room e.unc out G) (count : Nat) :
    ∃ G', putElement e (A.length + out.length + G.length + (nameOf r ++ (tailOf r).take 1).length)
        (A ++ (out ++ (G ++ (afterSeps r ++ 0 :: T)))) (A.length + out.length + G.length) (A.length + out.length) count
      = some (A ++ (put e.sep e.unc out (nameOf r) (!(tailOf r).isEmpty) ++ (G' ++ ((tailOf r).drop 1 ++ 0 :: T))),
          A.length + (put e.sep e.unc out (nameOf r) (!(tailOf r).isEmpty)).length, count)
      ∧ (put e.sep e.unc out (nameOf r) (!(tailOf r).isEmpty)).length + G'.length
          = out.length + G.length + (nameOf r).length + ((tailOf r).take 1).length
      ∧ (put e.sep e.unc out (nameOf r) (!(tailOf r).isEmpty) = [] → e.unc = false) := by
  unfold putElement
  have hseg : (nameOf r ++ (tailOf r).take 1).map (conv e.sep)
      = nameOf r ++ (if (!(tailOf r).isEmpty) then [e.sep] else []) := by
    rw [List.map_append, map_conv_name]
    cases ht : tailOf r with
    | nil => simp
    | cons c l => simp [conv, tailOf_head ht]
  have hafter : afterSeps r = (nameOf r ++ (tailOf r).take 1) ++ (tailOf r).drop 1 := by
    rw [List.append_assoc, List.take_append_drop, name_tail]
  generalize hs : nameOf r ++ (tailOf r).take 1 = seg at *
  have hseglen : seg.length = (nameOf r).length + ((tailOf r).take 1).length := by rw [← hs]; simp
  rw [hafter]
  cases hu : (e.unc && out.isEmpty) with
  | false =>
    have hcond : (e.unc && (A.length + out.length) == e.start) = false := by
      rw [hst]
      cases h1 : e.unc
      · rfl
      · rw [h1] at hu
        simp only [Bool.true_and, List.isEmpty_eq_false_iff] at hu
        have := List.length_pos_iff.2 hu
        simp; omega
    rw [hcond]
    simp only [Bool.false_eq_true, if_false]
    have := copyElement_to e.sep ((tailOf r).drop 1 ++ 0 :: T) seg (A ++ out) G
    refine ⟨(G ++ seg).drop seg.length, ?_, ?_, ?_⟩
    · rw [List.length_append] at this
      have e1 : A ++ (out ++ (G ++ (seg ++ (tailOf r).drop 1 ++ 0 :: T))) = A ++ out ++ (G ++ seg) ++ ((tailOf r).drop 1 ++ 0 :: T) := by
        simp
      simp only [Option.pure_def, Option.bind_eq_bind, Option.bind_some]
      rw [e1, this]
      simp only [Option.bind_some, put, hu, Bool.false_eq_true, if_false, hseg]
      have : seg.length = (nameOf r).length + (if (!(tailOf r).isEmpty) = true then [e.sep] else []).length := by
        rw [← List.length_append, ← hseg, List.length_map]
      simp [this, Nat.add_assoc]
    · simp only [put, hu, Bool.false_eq_true, if_false]
      have : seg.length = (nameOf r).length + (if (!(tailOf r).isEmpty) = true then [e.sep] else []).length := by
        rw [← List.length_append, ← hseg, List.length_map]
      simp only [List.length_append, List.length_drop]
      omega
    · intro h
      simp only [put, hu, Bool.false_eq_true, if_false, List.append_eq_nil_iff] at h
      cases h1 : e.unc
      · rfl
      · simp [h.1.1, h1] at hu
  | true =>
    simp only [Bool.and_eq_true, List.isEmpty_iff] at hu
    obtain ⟨hu1, rfl⟩ := hu
    have hcond : (e.unc && (A.length + ([] : List Nat).length) == e.start) = true := by simp [hu1, hst]
    rw [hcond]
    simp only [if_true]
    have hg := hroom hu1 rfl
    obtain ⟨g, G, rfl⟩ := List.exists_cons_of_ne_nil hg
    have e0 : wr (A ++ ([] ++ (g :: G ++ (seg ++ (tailOf r).drop 1 ++ 0 :: T)))) (A.length + ([] : List Nat).length) e.sep
        = some ((A ++ [e.sep]) ++ (G ++ seg) ++ ((tailOf r).drop 1 ++ 0 :: T)) := by
      simpa using wr_app (X := A) (Y := G ++ (seg ++ ((tailOf r).drop 1 ++ 0 :: T))) (c := g) (v := e.sep)
    rw [e0]
    simp only [Option.pure_def, Option.bind_eq_bind, Option.bind_some]
    have := copyElement_to e.sep ((tailOf r).drop 1 ++ 0 :: T) seg (A ++ [e.sep]) G
    refine ⟨(G ++ seg).drop seg.length, ?_, ?_, ?_⟩
    · have e2 : A.length + ([] : List Nat).length + (g :: G).length = (A ++ [e.sep]).length + G.length := by simp; omega
      rw [e2, show A.length + ([] : List Nat).length + 1 = (A ++ [e.sep]).length by simp, this]
      simp only [Option.bind_some, put, hu1, Bool.true_and, List.isEmpty_nil, if_true, hseg]
      have : seg.length = (nameOf r).length + (if (!(tailOf r).isEmpty) = true then [e.sep] else []).length := by
        rw [← List.length_append, ← hseg, List.length_map]
      simp [this]; omega
    · simp only [put, hu1, Bool.true_and, List.isEmpty_nil, if_true]
      have : seg.length = (nameOf r).length + (if (!(tailOf r).isEmpty) = true then [e.sep] else []).length := by
        rw [← List.length_append, ← hseg, List.length_map]
      simp only [List.length_append, List.length_drop, List.length_cons, List.length_nil]
      omega
    · intro h; simp [put, hu1] at h

theorem nextElement_to {m r : List Nat} {p : Nat} (h : At m p r) :
    nextElement m p = some (if r = [] then none else some (p + (r.length - ((tailOf r).drop 1).length))) := by
  unfold nextElement
  rw [h.rd0]
  cases r with
  | nil => simp
  | cons c r =>
    have hz : c ≠ 0 := fun e => h.2 (by simp [e])
    obtain ⟨q1, e1, a1, n1⟩ := skipSep_to h
    obtain ⟨q2, e2, a2, n2⟩ := skipNonsep_to a1
    have hle := tailOf_le (c :: r)
    have n3 : q2 + (tailOf (c :: r)).length = p + (c :: r).length := by unfold tailOf; omega
    simp only [List.headD_cons, Option.bind_eq_bind, Option.bind_some, if_neg hz, e1, e2, a2.rd0]
    rw [if_neg (show ¬ (c :: r = []) by simp)]
    show some (some _) = _
    congr 2
    have : fromSep (afterSeps (c :: r)) = tailOf (c :: r) := rfl
    rw [this]
    have h2 := a2.2
    rw [this] at h2
    cases ht : tailOf (c :: r) with
    | nil => rw [ht] at n3; simp at *; omega
    | cons d l =>
      rw [ht] at h2 n3 hle
      have : d ≠ 0 := fun e => h2 (by simp [e])
      simp [this] at *
      omega

theorem element_to (e : Env) {A out G r T : List Nat} (hA : A ≠ []) (hr : 0 ∉ r) (hne : r ≠ []) (hst : e.start = A.length)
    (hroom : Room e.unc out G) (count : Nat) :
    ∃ G', element e (A.length + out.length + G.length + (r.length - ((tailOf r).drop 1).length))
        (A ++ (out ++ (G ++ (r ++ 0 :: T)))) (A.length + out.length + G.length) (A.length + out.length) count
      = some (A ++ ((stepL e.sep e.dots e.eat e.unc (out, count) (nameOf r, !(tailOf r).isEmpty)).1
            ++ (G' ++ ((tailOf r).drop 1 ++ 0 :: T))),
          A.length + (stepL e.sep e.dots e.eat e.unc (out, count) (nameOf r, !(tailOf r).isEmpty)).1.length,
          (stepL e.sep e.dots e.eat e.unc (out, count) (nameOf r, !(tailOf r).isEmpty)).2)
      ∧ (stepL e.sep e.dots e.eat e.unc (out, count) (nameOf r, !(tailOf r).isEmpty)).1.length + G'.length
          = out.length + G.length + (r.length - ((tailOf r).drop 1).length)
      ∧ Room e.unc (stepL e.sep e.dots e.eat e.unc (out, count) (nameOf r, !(tailOf r).isEmpty)).1 G' := by
  have hat : At (A ++ (out ++ (G ++ (r ++ 0 :: T)))) (A.length + out.length + G.length) r := by
    have := at_app (X := A ++ out ++ G) (T := T) hr
    simpa [Nat.add_assoc] using this
  obtain ⟨q, e1, a1, n1⟩ := skipSep_to hat
  have hsplit : r = r.takeWhile isSep ++ afterSeps r := List.takeWhile_append_dropWhile.symm
  have hslen := congrArg List.length hsplit
  rw [List.length_append] at hslen
  have hq : q = A.length + out.length + (G ++ r.takeWhile isSep).length := by
    rw [List.length_append]; omega
  have hm : A ++ (out ++ (G ++ (r ++ 0 :: T))) = A ++ (out ++ ((G ++ r.takeWhile isSep) ++ (afterSeps r ++ 0 :: T))) := by
    conv => lhs; rw [hsplit]
    simp
  have hnt := congrArg List.length (name_tail r)
  rw [List.length_append] at hnt
  have htd : ((tailOf r).take 1).length + ((tailOf r).drop 1).length = (tailOf r).length := by
    rw [← List.length_append, List.take_append_drop]
  have hnext : A.length + out.length + G.length + (r.length - ((tailOf r).drop 1).length)
      = A.length + out.length + (G ++ r.takeWhile isSep).length + (nameOf r ++ (tailOf r).take 1).length := by
    simp only [List.length_append]; omega
  have hroom' : Room e.unc out (G ++ r.takeWhile isSep) := fun h1 h2 h3 => hroom h1 h2 (List.append_eq_nil_iff.1 h3).1
  have hcons : ((tailOf r).drop 1).length < r.length := by
    have := tailOf_le r
    have := List.length_pos_iff.2 hne
    simp; omega
  -- writing the element
  have hput : ∀ c, ∃ G', putElement e (A.length + out.length + G.length + (r.length - ((tailOf r).drop 1).length))
        (A ++ (out ++ (G ++ (r ++ 0 :: T)))) q (A.length + out.length) c
      = some (A ++ (put e.sep e.unc out (nameOf r) (!(tailOf r).isEmpty) ++ (G' ++ ((tailOf r).drop 1 ++ 0 :: T))),
          A.length + (put e.sep e.unc out (nameOf r) (!(tailOf r).isEmpty)).length, c)
      ∧ (put e.sep e.unc out (nameOf r) (!(tailOf r).isEmpty)).length + G'.length
          = out.length + G.length + (r.length - ((tailOf r).drop 1).length)
      ∧ Room e.unc (put e.sep e.unc out (nameOf r) (!(tailOf r).isEmpty)) G' := by
    intro c
    obtain ⟨G', h1, h2, h3⟩ := put_to e (A := A) (out := out) (G := G ++ r.takeWhile isSep) (r := r) (T := T) hst hroom' c
    refine ⟨G', ?_, ?_, ?_⟩
    · rw [hnext, hm, hq]; exact h1
    · simp only [List.length_append] at h2; omega
    · intro hu ho
      rw [h3 ho] at hu; simp at hu
  -- leaving the memory alone
  have hskip : ∃ G', A ++ (out ++ (G ++ (r ++ 0 :: T))) = A ++ (out ++ (G' ++ ((tailOf r).drop 1 ++ 0 :: T)))
      ∧ out.length + G'.length = out.length + G.length + (r.length - ((tailOf r).drop 1).length)
      ∧ G' ≠ [] := by
    have hs : (tailOf r).drop 1 <:+ r := (List.drop_suffix _ _).trans ((fromSep_suffix _).trans (afterSeps_suffix r))
    obtain ⟨a, ha⟩ := hs
    have hl := congrArg List.length ha
    simp only [List.length_append] at hl
    refine ⟨G ++ a, ?_, ?_, ?_⟩
    · conv => lhs; rw [← ha]
      simp
    · simp only [List.length_append]; omega
    · intro h
      have := (List.append_eq_nil_iff.1 h).2
      rw [this] at hl; simp at hl; simp at hcons; omega
  unfold element
  rw [e1]
  simp only [Option.bind_eq_bind, Option.bind_some]
  rw [a1.rd0]
  simp only [Option.bind_some]
  by_cases hd : (afterSeps r).headD 0 = 46 ∧ e.dots = true
  · rw [if_pos hd]
    obtain ⟨hd1, hd2⟩ := hd
    obtain ⟨l, hl⟩ : ∃ l, afterSeps r = 46 :: l := by
      cases h : afterSeps r with
      | nil => rw [h] at hd1; simp at hd1
      | cons c l => rw [h] at hd1; simp at hd1; subst hd1; exact ⟨l, rfl⟩
    have hname : nameOf r = 46 :: l.takeWhile (fun c => !isSep c) := by
      simp [nameOf, hl, isSep]
    rw [hl] at a1
    have hzl : 0 ∉ l := fun h => a1.2 (List.mem_cons_of_mem _ h)
    rw [a1.rd (i := 1) (by simp)]
    simp only [Option.bind_some, List.getD_cons_succ]
    -- whether the name ends after `i` characters
    by_cases h46 : l.getD 0 0 = 46
    · obtain ⟨l', rfl⟩ : ∃ l', l = 46 :: l' := by
        cases l with
        | nil => simp at h46
        | cons c l => simp at h46; subst h46; exact ⟨l, rfl⟩
      rw [if_pos h46, a1.rd (i := 2) (by simp)]
      simp only [Option.bind_some, List.getD_cons_succ]
      have hname' : nameOf r = 46 :: 46 :: l'.takeWhile (fun c => !isSep c) := by
        rw [hname]; simp [isSep]
      by_cases hend : isSep (l'.getD 0 0) = true ∨ l'.getD 0 0 = 0
      · have hn2 : nameOf r = [46, 46] := by
          rw [hname']
          cases l' with
          | nil => rfl
          | cons c l' =>
            have hcz : c ≠ 0 := fun e => hzl (by simp [e])
            simp [hcz] at hend
            simp [hend]
        rw [if_pos hend, if_neg (by simp)]
        by_cases hc : count = 0
        · rw [if_neg (by simp [hc])]
          cases he : e.eat with
          | true =>
            obtain ⟨G', g1, g2, g3⟩ := hskip
            refine ⟨G', ?_, ?_, ?_⟩
            · simp only [if_true]; rw [g1]; simp [stepL, hd2, hn2, hc]
            · simpa [stepL, hd2, hn2, hc] using g2
            · intro _ _; exact g3
          | false =>
            obtain ⟨G', g1, g2, g3⟩ := hput count
            refine ⟨G', ?_, ?_, ?_⟩
            · simp only [Bool.false_eq_true, if_false, g1]
              simp [stepL, hd2, hn2, hc]
            · simpa [stepL, hd2, hn2, hc] using g2
            · simpa [stepL, hd2, hn2, hc] using g3
        · rw [if_pos (by simpa using hc)]
          rw [hst, popElement_to A hA]
          obtain ⟨G', g1, g2, g3⟩ := hskip
          obtain ⟨b, hb⟩ := pop_prefix out
          have hbl := congrArg List.length hb
          rw [List.length_append] at hbl
          refine ⟨b ++ G', ?_, ?_, ?_⟩
          · have e3 : A ++ (pop out ++ (b ++ G' ++ ((tailOf r).drop 1 ++ 0 :: T)))
                = A ++ (out ++ (G' ++ ((tailOf r).drop 1 ++ 0 :: T))) := by
              conv => rhs; rw [← hb]
              simp
            have e4 : stepL e.sep e.dots e.eat e.unc (out, count) (nameOf r, !(tailOf r).isEmpty)
                = (pop out, uDec count) := by simp [stepL, hd2, hn2, hc]
            rw [e4]
            simp only [Option.bind_some]
            rw [e3, ← g1, Option.pure_def]
          · have e4 : stepL e.sep e.dots e.eat e.unc (out, count) (nameOf r, !(tailOf r).isEmpty)
                = (pop out, uDec count) := by simp [stepL, hd2, hn2, hc]
            rw [e4]
            simp only [List.length_append]; omega
          · intro _ _ h; exact g3 (List.append_eq_nil_iff.1 h).2
      · rw [if_neg hend]
        have hn2 : nameOf r ≠ [46, 46] ∧ nameOf r ≠ [46] := by
          rw [hname']
          cases l' with
          | nil => simp at hend
          | cons c l' => simp at hend; simp [hend]
        obtain ⟨G', g1, g2, g3⟩ := hput count
        have hst' : stepL e.sep e.dots e.eat e.unc (out, count) (nameOf r, !(tailOf r).isEmpty)
            = (put e.sep e.unc out (nameOf r) (!(tailOf r).isEmpty), count) := by
          simp [stepL, hn2, hd2]; simp [hname']
        rw [hst']
        exact ⟨G', g1, g2, g3⟩
    · rw [if_neg h46, a1.rd (i := 1) (by simp)]
      simp only [Option.bind_some, List.getD_cons_succ]
      by_cases hend : isSep (l.getD 0 0) = true ∨ l.getD 0 0 = 0
      · rw [if_pos hend, if_pos h46]
        have hn1 : nameOf r = [46] := by
          rw [hname]
          cases l with
          | nil => rfl
          | cons c l' =>
            have hcz : c ≠ 0 := fun e => hzl (by simp [e])
            simp [hcz] at hend
            simp [hend]
        obtain ⟨G', g1, g2, g3⟩ := hskip
        refine ⟨G', ?_, ?_, ?_⟩
        · rw [g1]; simp [stepL, hd2, hn1]
        · simpa [stepL, hd2, hn1] using g2
        · intro _ _; exact g3
      · rw [if_neg hend]
        have hn2 : nameOf r ≠ [46, 46] ∧ nameOf r ≠ [46] := by
          rw [hname]
          cases l with
          | nil => simp at hend
          | cons c l' => simp at hend h46; simp [hend, h46]
        obtain ⟨G', g1, g2, g3⟩ := hput count
        have hst' : stepL e.sep e.dots e.eat e.unc (out, count) (nameOf r, !(tailOf r).isEmpty)
            = (put e.sep e.unc out (nameOf r) (!(tailOf r).isEmpty), count) := by
          simp [stepL, hn2, hd2]; simp [hname]
        rw [hst']
        exact ⟨G', g1, g2, g3⟩
  · rw [if_neg hd]
    obtain ⟨G', g1, g2, g3⟩ := hput (uInc count)
    have hst' : stepL e.sep e.dots e.eat e.unc (out, count) (nameOf r, !(tailOf r).isEmpty)
        = (put e.sep e.unc out (nameOf r) (!(tailOf r).isEmpty), uInc count) := by
      cases hdd : e.dots with
      | false => simp [stepL]
      | true =>
        have hh : (afterSeps r).headD 0 ≠ 46 := fun h => hd ⟨h, hdd⟩
        have : (nameOf r).head? ≠ some 46 := by
          unfold nameOf
          cases h : afterSeps r with
          | nil => simp
          | cons c l => rw [h] at hh; simp at hh; rw [List.takeWhile_cons]; split <;> simp [hh]
        have h1 : nameOf r ≠ [46] := fun h => this (by simp [h])
        have h2 : nameOf r ≠ [46, 46] := fun h => this (by simp [h])
        simp [stepL, h1, h2, this]
    rw [hst']
    exact ⟨G', g1, g2, g3⟩

theorem elements_to (e : Env) {A T : List Nat} (hA : A ≠ []) (hst : e.start = A.length) (r : List Nat) (hr : 0 ∉ r)
    (out G : List Nat) (hroom : r ≠ [] → Room e.unc out G) (count : Nat) :
    ∃ G', elements e (A ++ (out ++ (G ++ (r ++ 0 :: T)))) (A.length + out.length + G.length) (A.length + out.length) count
      = some (A ++ (((elems r).foldl (stepL e.sep e.dots e.eat e.unc) (out, count)).1 ++ 0 :: (G' ++ T)))
      ∧ ((elems r).foldl (stepL e.sep e.dots e.eat e.unc) (out, count)).1.length + G'.length = out.length + G.length + r.length := by
  have hat : At (A ++ (out ++ (G ++ (r ++ 0 :: T)))) (A.length + out.length + G.length) r := by
    have := at_app (X := A ++ out ++ G) (T := T) hr
    simpa [Nat.add_assoc] using this
  rw [elements, nextElement_to hat]
  by_cases hne : r = []
  · subst hne
    simp only [if_true, elems, List.foldl_nil]
    cases G with
    | nil =>
      refine ⟨[], ?_, by simp⟩
      simpa using wr_app (X := A ++ out) (Y := T) (c := 0) (v := 0)
    | cons g G =>
      refine ⟨G ++ [0], ?_, by simp⟩
      simpa using wr_app (X := A ++ out) (Y := G ++ 0 :: T) (c := g) (v := 0)
  · rw [if_neg hne]
    simp only
    obtain ⟨G', h1, h2, h3⟩ := element_to e (T := T) hA hr hne hst (hroom hne) count
    rw [h1]
    simp only
    have htl := tailOf_le r
    have hpos := List.length_pos_iff.2 hne
    have hlt : ((tailOf r).drop 1).length < r.length := by simp; omega
    have hel : elems r = (nameOf r, !(tailOf r).isEmpty) :: elems ((tailOf r).drop 1) := by
      cases r with
      | nil => simp at hne
      | cons c l => rw [elems]
    rw [dif_pos]
    · obtain ⟨G'', k1, k2⟩ := elements_to e (T := T) hA hst ((tailOf r).drop 1)
        (fun h => hr (((List.drop_suffix _ _).trans ((fromSep_suffix _).trans (afterSeps_suffix r))).subset h))
        (stepL e.sep e.dots e.eat e.unc (out, count) (nameOf r, !(tailOf r).isEmpty)).1 G'
        (fun _ => h3)
        (stepL e.sep e.dots e.eat e.unc (out, count) (nameOf r, !(tailOf r).isEmpty)).2
      refine ⟨G'', ?_, ?_⟩
      · rw [hel, List.foldl_cons, ← k1]
        congr 1; omega
      · rw [hel, List.foldl_cons]
        rw [← Prod.eta (stepL _ _ _ _ _ _)]
        rw [k2]; omega
    · refine ⟨by omega, ?_, ?_⟩
      · simp only [List.length_append, List.length_cons]; omega
      · simp only [List.length_append, List.length_cons]; omega
termination_by r.length

end Clink.Path
