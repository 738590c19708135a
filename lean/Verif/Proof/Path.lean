import Verif.Model.Path
import Verif.Spec.Path

namespace Clink.Path

open StrCompare (isSep)
open Spec

/-- The C string at `p` is `l`. -/
def At (m : List Nat) (p : Nat) (l : List Nat) : Prop := (∃ t, m.drop p = l ++ 0 :: t) ∧ 0 ∉ l

theorem isSep_zero : isSep 0 = false := rfl

theorem At.rd {m l : List Nat} {p : Nat} (h : At m p l) {i : Nat} (hi : i ≤ l.length) :
    rd m (p + i) = some (l.getD i 0) := by
  obtain ⟨⟨t, ht⟩, -⟩ := h
  have : (m.drop p)[i]? = some (l.getD i 0) := by
    rw [ht]
    by_cases e : i < l.length
    · rw [List.getElem?_append_left e]; simp [e]
    · have : i = l.length := by omega
      subst this
      rw [List.getElem?_append_right (Nat.le_refl _)]; simp
  rw [List.getElem?_drop] at this
  exact this

theorem At.rd0 {m l : List Nat} {p : Nat} (h : At m p l) : Path.rd m p = some (l.headD 0) := by
  have := h.rd (i := 0) (by omega)
  rw [Nat.add_zero] at this
  rw [this]
  cases l <;> rfl

theorem At.drop {m l : List Nat} {p : Nat} (h : At m p l) {i : Nat} (hi : i ≤ l.length) :
    At m (p + i) (l.drop i) := by
  obtain ⟨⟨t, ht⟩, hz⟩ := h
  refine ⟨⟨t, ?_⟩, fun hm => hz (List.mem_of_mem_drop hm)⟩
  rw [← List.drop_drop, ht, List.drop_append_of_le_length hi]

theorem At.suffix {m l l' : List Nat} {p : Nat} (h : At m p l) (hs : l' <:+ l) :
    At m (p + (l.length - l'.length)) l' := by
  obtain ⟨a, rfl⟩ := hs
  have := h.drop (i := a.length) (by simp)
  simpa using this

theorem At.tail {m l : List Nat} {c p : Nat} (h : At m p (c :: l)) : At m (p + 1) l := by
  simpa using h.drop (i := 1) (by simp)

theorem At.le {m l : List Nat} {p : Nat} (h : At m p l) : p + l.length < m.length := by
  obtain ⟨⟨t, ht⟩, -⟩ := h
  have := congrArg List.length ht
  simp at this
  omega

theorem skipSep_at {m l : List Nat} {p : Nat} (h : At m p l) :
    skipSep m p = some (p + (l.length - (afterSeps l).length)) := by
  induction l generalizing p with
  | nil => rw [skipSep, h.rd0]; simp [isSep_zero]
  | cons c l ih =>
    have h0 : rd m p = some c := h.rd0
    rw [skipSep, h0]
    simp only
    by_cases hc : isSep c = true
    · rw [if_pos hc, ih h.tail]
      have : (afterSeps l).length ≤ l.length := (List.dropWhile_suffix _).length_le
      simp only [afterSeps, List.dropWhile_cons, hc, if_true, List.length_cons] at *
      congr 1; omega
    · rw [if_neg hc]
      simp [afterSeps, List.dropWhile_cons, hc]

theorem skipNonsep_at {m l : List Nat} {p : Nat} (h : At m p l) :
    skipNonsep m p = some (p + (l.length - (fromSep l).length)) := by
  induction l generalizing p with
  | nil => rw [skipNonsep, h.rd0]; simp
  | cons c l ih =>
    have h0 : rd m p = some c := h.rd0
    rw [skipNonsep, h0]
    have hz : c ≠ 0 := fun e => h.2 (by simp [e])
    simp only
    by_cases hc : isSep c = true
    · rw [if_neg (by simp [hc])]
      simp [fromSep, List.dropWhile_cons, hc]
    · rw [if_pos ⟨hz, by simpa using hc⟩, ih h.tail]
      have : (fromSep l).length ≤ l.length := (List.dropWhile_suffix _).length_le
      simp only [fromSep, List.dropWhile_cons, hc, List.length_cons] at *
      simp
      omega

theorem afterSeps_suffix (l : List Nat) : afterSeps l <:+ l := List.dropWhile_suffix _
theorem fromSep_suffix (l : List Nat) : fromSep l <:+ l := List.dropWhile_suffix _
theorem afterShare_suffix (l : List Nat) : afterShare l <:+ l :=
  (fromSep_suffix _).trans ((afterSeps_suffix _).trans (fromSep_suffix _))

/-- Skipping from `p` to the suffix `l'`. -/
theorem skipSep_to {m l : List Nat} {p : Nat} (h : At m p l) :
    ∃ q, skipSep m p = some q ∧ At m q (afterSeps l) ∧ q + (afterSeps l).length = p + l.length := by
  have := (afterSeps_suffix l).length_le
  exact ⟨_, skipSep_at h, h.suffix (afterSeps_suffix l), by omega⟩

theorem skipNonsep_to {m l : List Nat} {p : Nat} (h : At m p l) :
    ∃ q, skipNonsep m p = some q ∧ At m q (fromSep l) ∧ q + (fromSep l).length = p + l.length := by
  have := (fromSep_suffix l).length_le
  exact ⟨_, skipNonsep_at h, h.suffix (fromSep_suffix l), by omega⟩

theorem share_to {m l : List Nat} {p : Nat} (h : At m p l) :
    ∃ q, shareEnd m p = some (some q)
      ∧ At m q (afterShare l) ∧ q + (afterShare l).length = p + l.length := by
  obtain ⟨q1, e1, a1, n1⟩ := skipNonsep_to h
  obtain ⟨q2, e2, a2, n2⟩ := skipSep_to a1
  obtain ⟨q3, e3, a3, n3⟩ := skipNonsep_to a2
  refine ⟨q3, ?_, a3, ?_⟩
  · simp [shareEnd, e1, e2, e3]
  · unfold afterShare; omega

theorem pastSsqs_at {m l : List Nat} {p : Nat} (h : At m p l) :
    pastSsqs m p = some (l.length - ((afterSsqs l).getD l).length) := by
  unfold pastSsqs
  rw [h.rd0]
  rcases l with _ | ⟨a, l⟩
  · simp [isSep_zero, afterSsqs]
  simp only [List.headD_cons, Option.bind_eq_bind, Option.bind_some]
  by_cases ha : isSep a = true
  · rw [h.rd (i := 1) (by simp)]
    rcases l with _ | ⟨b, l⟩
    · simp [ha, isSep_zero, afterSsqs]
    simp only [ha, Bool.not_true, Bool.false_eq_true, if_false]
    by_cases hb : isSep b = true
    · rw [h.rd (i := 2) (by simp)]
      rcases l with _ | ⟨c, l⟩
      · simp [hb, afterSsqs]
      by_cases hc : c = 63
      · subst hc
        rw [h.rd (i := 3) (by simp)]
        rcases l with _ | ⟨d, l⟩
        · simp [hb, isSep_zero, afterSsqs]
        by_cases hd : isSep d = true
        · obtain ⟨q, e, -, n⟩ := skipSep_to (h.drop (i := 4) (by simp))
          simp only [List.drop_succ_cons, List.drop_zero] at n
          simp [hb, hd, ha, e, afterSsqs]
          omega
        · simp [hb, hd, afterSsqs]
      · simp [hb, hc, afterSsqs]
    · simp [hb, afterSsqs]
      rcases l with _ | ⟨c, _ | ⟨d, l⟩⟩ <;> simp [afterSsqs]
      split <;> simp_all
  · simp [ha, afterSsqs]
    split <;> simp_all

theorem afterSeps_noSep {l : List Nat} {c : Nat} {l' : List Nat} (h : afterSeps l = c :: l') : isSep c = false := by
  have := List.head?_dropWhile_not isSep l
  unfold afterSeps at h
  rw [h] at this
  simpa using this

theorem afterUnc_to {m l : List Nat} {p : Nat} (h : At m p l) :
    ∃ o : Option Nat, uncWord m p = some o ∧
      match (afterUncWord l).map afterShare with
      | none => o = none
      | some r => ∃ q, o = some q ∧ At m q r ∧ q + r.length = p + l.length := by
  unfold uncWord
  rw [h.rd0]
  rcases l with _ | ⟨u, l⟩
  · exact ⟨none, by simp, by simp [afterUncWord]⟩
  by_cases hu : u ≠ 85 ∧ u ≠ 117
  · refine ⟨none, by simp [hu], ?_⟩
    have : afterUncWord (u :: l) = none := by
      unfold afterUncWord; split <;> simp_all
    simp [this]
  rw [h.rd (i := 1) (by simp)]
  rcases l with _ | ⟨n, l⟩
  · exact ⟨none, by simp, by simp [afterUncWord]⟩
  by_cases hn : n ≠ 78 ∧ n ≠ 110
  · refine ⟨none, by simp [hn], ?_⟩
    have : afterUncWord (u :: n :: l) = none := by
      unfold afterUncWord; split <;> simp_all
    simp [this]
  rw [h.rd (i := 2) (by simp)]
  rcases l with _ | ⟨c, l⟩
  · exact ⟨none, by simp, by simp [afterUncWord]⟩
  by_cases hc : c ≠ 67 ∧ c ≠ 99
  · refine ⟨none, by simp [hc], ?_⟩
    have : afterUncWord (u :: n :: c :: l) = none := by
      unfold afterUncWord; split <;> simp_all
    simp [this]
  rw [h.rd (i := 3) (by simp)]
  rcases l with _ | ⟨d, l⟩
  · exact ⟨none, by simp [isSep_zero], by simp [afterUncWord]⟩
  by_cases hd : isSep d = true
  · have e : afterUncWord (u :: n :: c :: d :: l) = some (afterSeps l) := by
      simp only [afterUncWord, hd, Bool.and_true]
      rw [if_pos]
      simp only [Bool.and_eq_true, Bool.or_eq_true, beq_iff_eq]
      omega
    have h3 := h.drop (i := 3) (by simp)
    simp only [List.drop_succ_cons, List.drop_zero] at h3
    obtain ⟨q1, e1, a1, n1⟩ := skipSep_to h3
    have e2 : afterSeps (d :: l) = afterSeps l := by simp [afterSeps, List.dropWhile_cons, hd]
    rw [e2] at a1 n1
    obtain ⟨q2, s2, a2, n2⟩ := share_to a1
    refine ⟨some q2, ?_, ?_⟩
    · have g1 : ¬ (u ≠ 85 ∧ u ≠ 117) := hu
      simp only [Option.bind_eq_bind, Option.bind_some, List.headD_cons, List.getD_cons_succ, List.getD_cons_zero,
        if_neg hu, if_neg hn, if_neg hc, hd, Bool.not_true, Bool.false_eq_true, if_false, e1]
      exact s2
    · rw [e]
      refine ⟨q2, rfl, a2, ?_⟩
      simp only [List.length_cons] at *
      omega
  · refine ⟨none, by simp [hd], ?_⟩
    simp [afterUncWord, hd]

theorem isUnc_to {m l : List Nat} {p : Nat} (h : At m p l) :
    ∃ o : Option Nat, isUnc m p = some o ∧
      match uncRest l with
      | none => o = none
      | some r => ∃ q, o = some q ∧ At m q r ∧ q + r.length = p + l.length := by
  unfold isUnc
  rw [h.rd0]
  rcases l with _ | ⟨a, l⟩
  · exact ⟨none, by simp [isSep_zero], by simp [uncRest]⟩
  cases ha : isSep a with
  | false =>
    refine ⟨none, by simp [ha], ?_⟩
    have : uncRest (a :: l) = none := by unfold uncRest; split <;> simp_all
    simp [this]
  | true =>
  rw [h.rd (i := 1) (by simp)]
  rcases l with _ | ⟨b, l⟩
  · exact ⟨none, by simp [isSep_zero], by simp [uncRest]⟩
  cases hb : isSep b with
  | false => exact ⟨none, by simp [hb], by simp [uncRest, hb]⟩
  | true =>
  obtain ⟨q, e, hq, n⟩ := skipSep_to h
  have e2 : afterSeps (a :: b :: l) = afterSeps l := by simp [afterSeps, List.dropWhile_cons, ha, hb]
  rw [e2] at hq n
  simp only [List.headD_cons, List.getD_cons_succ, List.getD_cons_zero, ha, hb, Bool.not_true, Bool.false_eq_true,
    if_false, Option.bind_eq_bind, Option.bind_some, e, hq.rd0]
  have hdev : deviceAt m q ((afterSeps l).headD 0) = some (deviceLike (afterSeps l)) := by
    unfold deviceAt
    generalize afterSeps l = l at *
    rcases l with _ | ⟨c, l⟩
    · simp [deviceLike]
    by_cases hc : c = 46
    · subst hc
      rw [hq.rd (i := 1) (by simp)]
      rcases l with _ | ⟨d, l⟩
      · simp [deviceLike]
      · have : d ≠ 0 := fun e => hq.2 (by simp [e])
        simp [deviceLike, this]
    · have : deviceLike (c :: l) = false := by unfold deviceLike; split <;> simp_all
      simp [this, hc]
  rw [hdev]
  simp only [Option.bind_some]
  cases hd : deviceLike (afterSeps l) with
  | true => exact ⟨none, by simp, by simp [uncRest, ha, hb, hd]⟩
  | false =>
  simp only [Bool.false_eq_true, if_false]
  have hns : ssqsAt m q (q - p) ((afterSeps l).headD 0) = some (afterSsqs (a :: b :: l)).isSome := by
    unfold ssqsAt
    rcases l with _ | ⟨c, l⟩
    · simp [afterSeps, afterSsqs]
    cases hc : isSep c with
    | true =>
      have h63 : c ≠ 63 := by rintro rfl; simp [isSep] at hc
      have h1 : (afterSeps (c :: l)).length ≤ l.length := by
        simp only [afterSeps, List.dropWhile_cons, hc, if_true]
        exact (List.dropWhile_suffix _).length_le
      have h2 : ¬ (q - p = 2) := by simp only [List.length_cons] at n; omega
      have h3 : afterSsqs (a :: b :: c :: l) = none := by unfold afterSsqs; split <;> simp_all
      rw [if_neg (by simp [h2]), h3]; rfl
    | false =>
      have h1 : afterSeps (c :: l) = c :: l := by simp [afterSeps, List.dropWhile_cons, hc]
      rw [h1] at n hq ⊢
      have h2 : q - p = 2 := by simp only [List.length_cons] at n; omega
      by_cases h63 : c = 63
      · subst h63
        rw [if_pos ⟨h2, rfl⟩, hq.rd (i := 1) (by simp)]
        rcases l with _ | ⟨d, l⟩
        · simp [afterSsqs, isSep_zero]
        · cases hd : isSep d <;> simp [afterSsqs, ha, hb, hd]
      · have h3 : afterSsqs (a :: b :: c :: l) = none := by unfold afterSsqs; split <;> simp_all
        rw [if_neg (by simp [h63]), h3]; rfl
  rw [hns]
  simp only [Option.bind_some]
  cases hr : afterSsqs (a :: b :: l) with
  | none =>
    obtain ⟨q2, s2, a2, n2⟩ := share_to hq
    refine ⟨some q2, by simp [s2], ?_⟩
    simp only [uncRest, ha, hb, hd, hr, Bool.and_true, if_true, Bool.false_eq_true, if_false]
    exact ⟨q2, rfl, a2, by omega⟩
  | some r =>
    have : ∃ d l', l = 63 :: d :: l' ∧ isSep d = true ∧ r = afterSeps l' := by
      unfold afterSsqs at hr
      split at hr
      · rename_i heq
        split at hr
        · rename_i x; simp only [List.cons.injEq] at heq
          obtain ⟨-, -, rfl⟩ := heq
          simp at hr x
          exact ⟨_, _, rfl, x.2, hr.symm⟩
        · simp at hr
      · simp at hr
    obtain ⟨d, l', rfl, hsd, rfl⟩ := this
    have h1 : afterSeps (63 :: d :: l') = 63 :: d :: l' := by simp [afterSeps, List.dropWhile_cons, isSep]
    rw [h1] at hq n
    obtain ⟨q1, e1, a1, n1⟩ := skipSep_to hq.tail
    have h2 : afterSeps (d :: l') = afterSeps l' := by simp [afterSeps, List.dropWhile_cons, hsd]
    rw [h2] at a1 n1
    obtain ⟨o, e3, h3⟩ := afterUnc_to a1
    refine ⟨o, by simp [e1, e3], ?_⟩
    have : uncRest (a :: b :: 63 :: d :: l') = (afterUncWord (afterSeps l')).map afterShare := by
      simp only [uncRest, ha, hb, hd, hr, Bool.and_true, if_true, Bool.false_eq_true, if_false]
    rw [this]
    cases hw : (afterUncWord (afterSeps l')).map afterShare with
    | none => rw [hw] at h3; exact h3
    | some r =>
      rw [hw] at h3
      obtain ⟨q4, x, y, z⟩ := h3
      refine ⟨q4, x, y, ?_⟩
      simp only [List.length_cons] at *
      omega

theorem afterSsqs_suffix {l r : List Nat} (h : afterSsqs l = some r) : r <:+ l := by
  unfold afterSsqs at h
  split at h
  · split at h
    · injection h with h
      subst h
      rename_i a b d l x
      exact (afterSeps_suffix _).trans ⟨[a, b, 63, d], rfl⟩
    · simp at h
  · simp at h

theorem pastDrive_to (alpha : Nat → Bool) {m l : List Nat} {p : Nat} (hz : alpha 0 = false) (h : At m p l) :
    ∃ q, pastDrive alpha m p = some q ∧ At m q (rest alpha l) ∧ q + (rest alpha l).length = p + l.length := by
  unfold pastDrive
  obtain ⟨o, e, ho⟩ := isUnc_to h
  rw [e]
  simp only [Option.bind_eq_bind, Option.bind_some]
  unfold rest
  cases hu : uncRest l with
  | some r =>
    rw [hu] at ho
    obtain ⟨q, rfl, h1, h2⟩ := ho
    exact ⟨q, rfl, h1, h2⟩
  | none =>
    rw [hu] at ho
    subst ho
    simp only [pastSsqs_at h, Option.bind_some]
    have hs : (afterSsqs l).getD l <:+ l := by
      cases hr : afterSsqs l with
      | none => exact List.suffix_refl _
      | some r => exact afterSsqs_suffix hr
    have hle := hs.length_le
    have h1 := h.suffix hs
    have hn : p + (l.length - ((afterSsqs l).getD l).length) + ((afterSsqs l).getD l).length = p + l.length := by omega
    revert h1 hn
    generalize (afterSsqs l).getD l = r
    generalize p + (l.length - r.length) = q
    intro h1 hn
    rw [h1.rd0]
    rcases r with _ | ⟨c, r⟩
    · exact ⟨q, by simp [hz], by simpa [afterLetter] using h1, by simpa [afterLetter] using hn⟩
    simp only [List.headD_cons, Option.bind_some]
    cases ha : alpha c with
    | false =>
      have : afterLetter alpha (c :: r) = c :: r := by unfold afterLetter; split <;> simp_all
      rw [this]
      exact ⟨q, by simp, h1, hn⟩
    | true =>
      rw [h1.rd (i := 1) (by simp)]
      rcases r with _ | ⟨d, r⟩
      · exact ⟨q, by simp, by simpa [afterLetter] using h1, by simpa [afterLetter] using hn⟩
      by_cases hd : d = 58
      · subst hd
        refine ⟨q + 2, by simp, ?_, ?_⟩
        · simpa [afterLetter, ha] using h1.drop (i := 2) (by simp)
        · simp [afterLetter, ha] at *; omega
      · have : afterLetter alpha (c :: d :: r) = c :: d :: r := by unfold afterLetter; split <;> simp_all
        rw [this]
        exact ⟨q, by simp [hd], h1, hn⟩

end Clink.Path
