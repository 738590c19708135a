import Verif.Proof.PathElem

/-! `normalise` as a function of the string. -/

namespace Clink.Path

open StrCompare (isSep)
open Spec

/-- `\\.\`. -/
def isDevice : List Nat → Bool
  | a :: b :: 46 :: d :: _ => isSep a && isSep b && isSep d
  | _ => false

/-- Two leading separators. -/
def twoSeps : List Nat → Bool
  | a :: b :: _ => isSep a && isSep b
  | _ => false

/-- The part of `root` that is copied character by character, and the part in front of it. -/
def keep (l h : List Nat) : Nat := if h ≠ [] ∧ twoSeps l then 2 else 0

/-- What the prefix looks like afterwards. -/
def newPrefix (k : Nat) (h : List Nat) : List Nat :=
  h.take k ++ (squash (h.drop k) ++ (h.drop k).drop (squash (h.drop k)).length)

theorem newPrefix_length (k : Nat) (h : List Nat) : (newPrefix k h).length = h.length := by
  have := squash_le (h.drop k)
  simp [newPrefix] at *
  omega

theorem rest_suffix (alpha : Nat → Bool) (l : List Nat) : rest alpha l <:+ l := by
  unfold rest
  split
  · rename_i r h
    unfold uncRest at h
    split at h
    · rename_i a b l'
      split at h
      · split at h
        · simp at h
        · split at h
          · rename_i r' hr'
            simp only [Option.map_eq_some_iff] at h
            obtain ⟨w, hw, rfl⟩ := h
            have : w <:+ r' := by
              unfold afterUncWord at hw
              split at hw
              · split at hw
                · injection hw with hw
                  subst hw
                  rename_i u n c d l _
                  exact (afterSeps_suffix _).trans ⟨[u, n, c, d], rfl⟩
                · simp at hw
              · simp at hw
            exact (afterShare_suffix w).trans (this.trans (afterSsqs_suffix hr'))
          · injection h with h
            subst h
            exact (afterShare_suffix _).trans ((afterSeps_suffix _).trans ⟨[a, b], rfl⟩)
      · simp at h
    · simp at h
  · have h1 : (afterSsqs l).getD l <:+ l := by
      cases hr : afterSsqs l with
      | none => exact List.suffix_refl _
      | some r => exact afterSsqs_suffix hr
    refine List.IsSuffix.trans ?_ h1
    unfold afterLetter
    split
    · split
      · rename_i heq _; rw [heq]; exact ⟨[_, 58], rfl⟩
      · rename_i heq _; rw [heq]; exact List.suffix_refl _
    · exact List.suffix_refl _

theorem root_rest (alpha : Nat → Bool) (l : List Nat) : root alpha l ++ rest alpha l = l := by
  obtain ⟨a, ha⟩ := rest_suffix alpha l
  unfold root
  have hl := congrArg List.length ha
  rw [List.length_append] at hl
  have : l.length - (rest alpha l).length = a.length := by omega
  rw [this]
  conv => rhs; rw [← ha]
  congr 1
  rw [← ha, List.take_append_of_le_length (Nat.le_refl _), List.take_length]

theorem afterSeps_head {l : List Nat} : ∀ e, (afterSeps l).head? = some e → isSep e = false := by
  intro e he
  cases h : afterSeps l with
  | nil => rw [h] at he; simp at he
  | cons c l' => rw [h] at he; simp at he; subst he; exact afterSeps_noSep h

/-- A prefix followed by a part that does not begin with a separator. -/
theorem noJump_of_head {d r : List Nat} (h : ∀ e, r.head? = some e → isSep e = false) : NoJump d r :=
  fun _ _ _ e he => h e he

theorem take_prefix (a b : List Nat) : (a ++ b).take a.length = a := by
  rw [List.take_append_of_le_length (Nat.le_refl _), List.take_length]

theorem noJump_share (y x : List Nat) :
    NoJump ((y ++ x).take ((y ++ x).length - (afterShare x).length)) (afterShare x) := by
  intro c hc hs e he
  have h1 : afterSeps (fromSep x) = (afterSeps (fromSep x)).takeWhile (fun c => !isSep c) ++ afterShare x :=
    List.takeWhile_append_dropWhile.symm
  cases hn : (afterSeps (fromSep x)).takeWhile (fun c => !isSep c) with
  | nil =>
    -- an empty share name
    rw [hn, List.nil_append] at h1
    rw [← h1] at he
    exact afterSeps_head e he
  | cons n ns =>
    generalize hF : fromSep x = F at *
    have h2 : x = x.takeWhile (fun c => !isSep c) ++ (F.takeWhile isSep ++ ((n :: ns) ++ afterShare x)) := by
      rw [← hn, ← h1, ← hF]
      show x = _ ++ ((fromSep x).takeWhile isSep ++ (fromSep x).dropWhile isSep)
      rw [List.takeWhile_append_dropWhile]
      exact List.takeWhile_append_dropWhile.symm
    generalize x.takeWhile (fun c => !isSep c) = a at h2
    have h3 : (y ++ x).take ((y ++ x).length - (afterShare x).length) = y ++ (a ++ (F.takeWhile isSep ++ (n :: ns))) := by
      generalize hS : afterShare x = S at *
      have e1 : y ++ x = (y ++ (a ++ (F.takeWhile isSep ++ (n :: ns)))) ++ S := by rw [h2]; simp
      rw [e1, show ((y ++ (a ++ (F.takeWhile isSep ++ (n :: ns)))) ++ S).length - S.length
        = (y ++ (a ++ (F.takeWhile isSep ++ (n :: ns)))).length by simp only [List.length_append]; omega]
      exact take_prefix _ _
    have hmem : c ∈ n :: ns := by
      rw [h3, ← List.append_assoc, ← List.append_assoc, List.getLast?_append] at hc
      apply List.mem_of_getLast?
      cases hl : (n :: ns).getLast? with
      | none => simp at hl
      | some z => rw [hl] at hc; simpa using hc
    rw [← hn] at hmem
    have := List.all_eq_true.1 (List.all_takeWhile (p := fun c => !isSep c) (l := afterSeps F)) c hmem
    simp [hs] at this

theorem noJump_root (alpha : Nat → Bool) (l : List Nat) : NoJump (root alpha l) (rest alpha l) := by
  unfold root
  rcases hu : uncRest l with _ | r
  · have hr : rest alpha l = afterLetter alpha ((afterSsqs l).getD l) := by simp [rest, hu]
    rw [hr]
    rcases hs : afterSsqs l with _ | r
    · simp only [Option.getD_none]
      unfold afterLetter
      split
      · rename_i c0 l'
        split
        · intro c hc hcs
          rw [show (c0 :: 58 :: l').length - l'.length = 2 by simp only [List.length_cons]; omega] at hc
          simp at hc
          rw [← hc] at hcs
          simp [isSep] at hcs
        · intro c hc; simp at hc
      · intro c hc; simp at hc
    · simp only [Option.getD_some]
      have hh : ∀ e, r.head? = some e → isSep e = false := by
        unfold afterSsqs at hs
        split at hs
        · split at hs
          · injection hs with hs
            rw [← hs]; exact afterSeps_head
          · simp at hs
        · simp at hs
      unfold afterLetter
      split
      · rename_i c l'
        split
        · intro d hd hds
          obtain ⟨a, ha⟩ := afterSsqs_suffix hs
          rw [← ha] at hd
          have e1 : (a ++ c :: 58 :: l').take ((a ++ c :: 58 :: l').length - l'.length) = a ++ [c, 58] := by
            have : a ++ c :: 58 :: l' = (a ++ [c, 58]) ++ l' := by simp
            rw [this, show ((a ++ [c, 58]) ++ l').length - l'.length = (a ++ [c, 58]).length by simp only [List.length_append]; omega]
            exact take_prefix _ _
          rw [e1] at hd
          simp at hd
          rw [← hd] at hds
          simp [isSep] at hds
        · exact noJump_of_head hh
      · exact noJump_of_head hh
  · have hr : rest alpha l = r := by simp [rest, hu]
    rw [hr]
    have : ∃ y x, l = y ++ x ∧ r = afterShare x := by
      unfold uncRest at hu
      split at hu
      · rename_i a b l'
        split at hu
        · split at hu
          · simp at hu
          · split at hu
            · rename_i r' hr'
              simp only [Option.map_eq_some_iff] at hu
              obtain ⟨w, hw, rfl⟩ := hu
              have : w <:+ r' := by
                unfold afterUncWord at hw
                split at hw
                · split at hw
                  · injection hw with hw
                    subst hw
                    rename_i u n c d l _
                    exact (afterSeps_suffix _).trans ⟨[u, n, c, d], rfl⟩
                  · simp at hw
                · simp at hw
              obtain ⟨y, hy⟩ := this.trans (afterSsqs_suffix hr')
              exact ⟨y, w, hy.symm, rfl⟩
            · injection hu with hu
              obtain ⟨y, hy⟩ : afterSeps l' <:+ a :: b :: l' := (afterSeps_suffix _).trans ⟨[a, b], rfl⟩
              exact ⟨y, _, hy.symm, hu.symm⟩
        · simp at hu
      · simp at hu
    obtain ⟨y, x, rfl, rfl⟩ := this
    exact noJump_share y x

/-- After a UNC prefix the path ends or a separator follows. -/
theorem unc_rest_head {l r : List Nat} (h : uncRest l = some r) {c : Nat} {r' : List Nat} (hr : r = c :: r') : isSep c = true := by
  have : ∃ x, r = afterShare x := by
    unfold uncRest at h
    split at h
    · split at h
      · split at h
        · simp at h
        · split at h
          · simp only [Option.map_eq_some_iff] at h
            obtain ⟨w, hw, rfl⟩ := h
            exact ⟨w, rfl⟩
          · injection h with h; exact ⟨_, h.symm⟩
      · simp at h
    · simp at h
  obtain ⟨x, rfl⟩ := this
  have := List.head?_dropWhile_not (fun c => !isSep c) (afterSeps (fromSep x))
  unfold afterShare fromSep at hr
  unfold fromSep at this
  rw [hr] at this
  simpa using this

/-- A nonempty prefix after two separators has them inside. -/
theorem root_two {alpha : Nat → Bool} {l : List Nat} (ha : ∀ c, isSep c = true → alpha c = false)
    (ht : twoSeps l = true) (hr : root alpha l ≠ []) : 2 ≤ (root alpha l).length := by
  have hl := congrArg List.length (root_rest alpha l)
  rw [List.length_append] at hl
  rcases l with _ | ⟨a, _ | ⟨b, l⟩⟩
  · simp [twoSeps] at ht
  · simp [twoSeps] at ht
  simp only [twoSeps, Bool.and_eq_true] at ht
  suffices (rest alpha (a :: b :: l)).length ≤ l.length ∨ rest alpha (a :: b :: l) = a :: b :: l by
    rcases this with h | h
    · simp only [List.length_cons] at hl; omega
    · rw [h] at hl
      exact absurd (List.length_eq_zero_iff.1 (by omega)) hr
  unfold rest
  rcases hu : uncRest (a :: b :: l) with _ | r
  · rcases hs : afterSsqs (a :: b :: l) with _ | r
    · right
      simp only [Option.getD_none]
      unfold afterLetter
      split
      · rename_i heq
        simp only [List.cons.injEq] at heq
        rw [← heq.1, ha a ht.1]; simp [heq]
      · rfl
    · left
      simp only [Option.getD_some]
      have h1 : (afterLetter alpha r).length ≤ r.length := by
        unfold afterLetter
        split
        · split <;> simp <;> omega
        · exact Nat.le_refl _
      have h2 : r.length ≤ l.length := by
        unfold afterSsqs at hs
        split at hs
        · rename_i heq
          split at hs
          · injection hs with hs
            simp only [List.cons.injEq] at heq
            obtain ⟨-, -, rfl⟩ := heq
            rw [← hs]
            have := afterSeps_le ‹List Nat›
            simp; omega
          · simp at hs
        · simp at hs
      omega
  · left
    simp only
    simp only [uncRest, ht.1, ht.2, Bool.and_self, if_true] at hu
    split at hu
    · simp at hu
    · split at hu
      · rename_i r' hr'
        simp only [Option.map_eq_some_iff] at hu
        obtain ⟨w, hw, rfl⟩ := hu
        have h1 := (afterShare_suffix w).length_le
        have h2 : w.length ≤ r'.length := by
          unfold afterUncWord at hw
          split at hw
          · split at hw
            · injection hw with hw
              subst hw
              have := afterSeps_le ‹List Nat›
              simp; omega
            · simp at hw
          · simp at hw
        have h3 : r'.length ≤ l.length := by
          unfold afterSsqs at hr'
          split at hr'
          · rename_i heq
            split at hr'
            · injection hr' with hr'
              simp only [List.cons.injEq] at heq
              obtain ⟨-, -, rfl⟩ := heq
              rw [← hr']
              have := afterSeps_le ‹List Nat›
              simp; omega
            · simp at hr'
          · simp at hr'
        omega
      · injection hu with hu
        subst hu
        exact ((afterShare_suffix _).trans (afterSeps_suffix _)).length_le

theorem twoAt_to {m l : List Nat} {p : Nat} (h : At m p l) : twoAt m p = some (twoSeps l) := by
  unfold twoAt
  rw [h.rd0]
  rcases l with _ | ⟨a, l⟩
  · rfl
  simp only [List.headD_cons, Option.bind_some]
  cases ha : isSep a with
  | false => simp [twoSeps]; cases l <;> simp [twoSeps, ha]
  | true =>
    rw [if_pos rfl, h.rd (i := 1) (by simp)]
    rcases l with _ | ⟨b, l⟩
    · rfl
    · simp [twoSeps, ha]

theorem devAt_to {m l : List Nat} {p : Nat} (h : At m p l) : devAt m p (twoSeps l) = some (isDevice l) := by
  unfold devAt
  cases ht : twoSeps l with
  | false =>
    have : isDevice l = false := by
      unfold isDevice; split
      · simp [twoSeps] at ht; simp; intro h1 h2; exact absurd h2 (by simp [ht h1])
      · rfl
    simp [this]
  | true =>
    rcases l with _ | ⟨a, _ | ⟨b, l⟩⟩
    · simp [twoSeps] at ht
    · simp [twoSeps] at ht
    simp only [twoSeps, Bool.and_eq_true] at ht
    simp only [if_true]
    rw [h.rd (i := 2) (by simp)]
    rcases l with _ | ⟨c, l⟩
    · simp [isDevice]
    simp only [List.getD_cons_succ, List.getD_cons_zero, Option.bind_some]
    by_cases hc : c = 46
    · subst hc
      rw [if_pos rfl, h.rd (i := 3) (by simp)]
      rcases l with _ | ⟨d, l⟩
      · simp [isDevice, isSep]
      · simp [isDevice, ht]
    · rw [if_neg hc]
      unfold isDevice
      split <;> simp_all

theorem quesAt_to {m l : List Nat} {p : Nat} (h : At m p l) : ∃ b, quesAt m p (twoSeps l) = some b := by
  unfold quesAt
  cases ht : twoSeps l with
  | false => exact ⟨false, rfl⟩
  | true =>
    rcases l with _ | ⟨a, _ | ⟨b, l⟩⟩
    · simp [twoSeps] at ht
    · simp [twoSeps] at ht
    rw [if_pos rfl, h.rd (i := 2) (by simp)]
    exact ⟨_, rfl⟩

/-- The prefix that `normalise` treats specially. -/
def head (alpha : Nat → Bool) (l : List Nat) : List Nat := if isDevice l then [] else root alpha l
/-- The rest. -/
def body (alpha : Nat → Bool) (l : List Nat) : List Nat := if isDevice l then l else rest alpha l

theorem head_body (alpha : Nat → Bool) (l : List Nat) : head alpha l ++ body alpha l = l := by
  unfold head body
  split
  · rfl
  · exact root_rest alpha l

/-- `eat_extra_dots`. -/
def eats (alpha : Nat → Bool) (l : List Nat) : Bool :=
  head alpha l ≠ [] ∧ twoSeps l = true ∧ l.getD 2 0 = 63

/-- Two separators are left alone. -/
theorem prefixPart_to {alpha : Nat → Bool} (ha : ∀ c, isSep c = true → alpha c = false) (hz : alpha 0 = false)
    {A s T : List Nat} (hs : 0 ∉ s) :
    prefixPart alpha (A ++ (s ++ 0 :: T)) A.length (twoSeps s) (isDevice s)
      = some (A ++ (newPrefix (keep s (head alpha s)) (head alpha s) ++ (body alpha s ++ 0 :: T)),
          A.length + (head alpha s).length, eats alpha s) := by
  have hat : At (A ++ (s ++ 0 :: T)) A.length s := at_app hs
  unfold prefixPart
  cases hd : isDevice s with
  | true =>
    simp [head, body, hd, newPrefix, keep, squash, eats]
  | false =>
    obtain ⟨q, e1, a1, n1⟩ := pastDrive_to alpha hz hat
    have hrr := root_rest alpha s
    have hl := congrArg List.length hrr
    rw [List.length_append] at hl
    have hq : q = A.length + (root alpha s).length := by omega
    have hh : head alpha s = root alpha s := by simp [head, hd]
    have hb : body alpha s = rest alpha s := by simp [body, hd]
    rw [e1]
    simp only [Bool.false_eq_true, if_false, Option.bind_some]
    have hques : quesAt (A ++ (s ++ 0 :: T)) A.length (twoSeps s) = some (twoSeps s && s.getD 2 0 == 63) := by
      unfold quesAt
      cases ht : twoSeps s with
      | false => simp
      | true =>
        rcases s with _ | ⟨a, _ | ⟨b, l⟩⟩
        · simp [twoSeps] at ht
        · simp [twoSeps] at ht
        rw [if_pos rfl, hat.rd (i := 2) (by simp)]
        simp
    rw [hques]
    simp only [Option.bind_some]
    rw [hh, hb]
    have hcond : (A.length + 1 ≤ q ∧ twoSeps s = true) ↔ (root alpha s ≠ [] ∧ twoSeps s = true) := by
      rw [hq, ← List.length_pos_iff]
      constructor
      · rintro ⟨h1, h2⟩; exact ⟨by omega, h2⟩
      · rintro ⟨h1, h2⟩; exact ⟨by omega, h2⟩
    have hk : (if A.length + 1 ≤ q ∧ twoSeps s = true then A.length + 2 else A.length)
        = (A ++ (root alpha s).take (keep s (root alpha s))).length := by
      unfold keep
      by_cases h : root alpha s ≠ [] ∧ twoSeps s = true
      · rw [if_pos (hcond.2 h), if_pos h]
        have := root_two ha h.2 h.1
        simp; omega
      · rw [if_neg (fun x => h (hcond.1 x)), if_neg h]; simp
    rw [hk]
    have hz1 : 0 ∉ root alpha s := fun h => hs (by rw [← hrr]; exact List.mem_append_left _ h)
    have hz2 : 0 ∉ rest alpha s := fun h => hs (by rw [← hrr]; exact List.mem_append_right _ h)
    have hcp := copyPrefix_to (rest alpha s) T hz2 ((root alpha s).drop (keep s (root alpha s)))
      (fun h => hz1 (List.mem_of_mem_drop h))
      ((noJump_root alpha s).suffix (List.drop_suffix _ _)) (A ++ (root alpha s).take (keep s (root alpha s))) []
    have hlen : (A ++ (root alpha s).take (keep s (root alpha s))).length + ([] : List Nat).length
        + ((root alpha s).drop (keep s (root alpha s))).length = q := by
      rw [hq]
      have := congrArg List.length (List.take_append_drop (keep s (root alpha s)) (root alpha s))
      simp only [List.length_append, List.length_nil] at this ⊢
      omega
    rw [hlen] at hcp
    simp only [List.nil_append, List.length_nil, Nat.add_zero] at hcp
    have hm : A ++ (root alpha s).take (keep s (root alpha s)) ++ (root alpha s).drop (keep s (root alpha s)) ++ (rest alpha s ++ 0 :: T)
        = A ++ (s ++ 0 :: T) := by
      rw [List.append_assoc A, List.take_append_drop]
      conv => rhs; rw [← hrr]
      simp
    rw [hm] at hcp
    rw [hcp]
    simp only [Option.map_some, Option.some.injEq, Prod.mk.injEq]
    refine ⟨by simp [newPrefix], hq, ?_⟩
    unfold eats
    rw [hh, hq]
    have : (decide (A.length < A.length + (root alpha s).length)) = decide (root alpha s ≠ []) := by
      have := List.length_pos_iff (l := root alpha s)
      simp only [ne_eq, decide_eq_decide, ← this]
      omega
    rw [this, Bool.eq_iff_iff]
    simp

theorem device_not_unc {s : List Nat} (h : isDevice s = true) : uncRest s = none := by
  unfold isDevice at h
  split at h
  · rename_i a b d l
    simp only [Bool.and_eq_true] at h
    have e : afterSeps (46 :: d :: l) = 46 :: d :: l := by simp [afterSeps, isSep]
    simp only [uncRest, h.1.1, h.1.2, Bool.and_self, if_true, e, deviceLike, h.2]
  · simp at h

/-- The text after the prefix when `normalise` is finished. -/
def newBody (alpha : Nat → Bool) (sep : Nat) (l : List Nat) : List Nat :=
  match body alpha l with
  | [] => []
  | c :: r =>
    if isSep c then
      if (uncRest l).isSome then ((elems r).foldl (stepL sep (!isDevice l) (eats alpha l) true) ([sep], 2147483647)).1
      else sep :: ((elems r).foldl (stepL sep (!isDevice l) (eats alpha l) false) ([], 2147483647)).1
    else ((elems (c :: r)).foldl (stepL sep (!isDevice l) (eats alpha l) (uncRest l).isSome) ([], 0)).1

theorem normalise_to {alpha : Nat → Bool} {sep : Nat} (ha : ∀ c, isSep c = true → alpha c = false) (hz : alpha 0 = false)
    {A s T : List Nat} (hs : 0 ∉ s) (hA : A ≠ [] ∨ head alpha s ≠ [] ∨ ∃ c, s.head? = some c ∧ isSep c = true) :
    ∃ T', normalise alpha sep (A ++ (s ++ 0 :: T)) A.length
        = some (A ++ (newPrefix (keep s (head alpha s)) (head alpha s) ++ newBody alpha sep s ++ 0 :: (T' ++ T)))
      ∧ (newBody alpha sep s).length + T'.length = (body alpha s).length := by
  have hat : At (A ++ (s ++ 0 :: T)) A.length s := at_app hs
  obtain ⟨o, hu, ho⟩ := isUnc_to hat
  have hou : o.isSome = (uncRest s).isSome := by
    cases h : uncRest s with
    | none => rw [h] at ho; subst ho; rfl
    | some r => rw [h] at ho; obtain ⟨q, rfl, -⟩ := ho; rfl
  unfold normalise
  rw [hu]
  simp only [Option.bind_some]
  rw [twoAt_to hat]
  simp only [Option.bind_some]
  rw [devAt_to hat]
  simp only [Option.bind_some]
  rw [prefixPart_to ha hz hs]
  simp only [Option.bind_some]
  have hpl := newPrefix_length (keep s (head alpha s)) (head alpha s)
  have hP : newPrefix (keep s (head alpha s)) (head alpha s) = [] → head alpha s = [] := by
    intro h; rw [h] at hpl; exact List.length_eq_zero_iff.1 (by simpa using hpl.symm)
  generalize newPrefix (keep s (head alpha s)) (head alpha s) = P at *
  have hbz : 0 ∉ body alpha s := fun h => hs (by rw [← head_body alpha s]; exact List.mem_append_right _ h)
  have e0 : A ++ (P ++ (body alpha s ++ 0 :: T)) = (A ++ P) ++ (body alpha s ++ 0 :: T) := by simp
  have hPl : A.length + (head alpha s).length = (A ++ P).length := by simp [hpl]
  rw [hPl, hou]
  rw [e0]
  have hat2 : At ((A ++ P) ++ (body alpha s ++ 0 :: T)) (A ++ P).length (body alpha s) := at_app hbz
  have hunc : ∀ c r, (uncRest s).isSome = true → body alpha s = c :: r → isDevice s = false → isSep c = true := by
    intro c r h1 h2 h3
    obtain ⟨x, hx⟩ := Option.isSome_iff_exists.1 h1
    have : body alpha s = x := by simp [body, h3, rest, hx]
    exact unc_rest_head hx (this.symm.trans h2)
  unfold newBody
  cases hb : body alpha s with
  | nil =>
    rw [hb] at hat2
    have hrd : rd (A ++ P ++ ([] ++ 0 :: T)) (A ++ P).length = some 0 := hat2.rd0
    rw [hrd]
    simp only [Option.bind_some]
    rw [if_neg (show ¬ (isSep 0 = true) by simp [isSep_zero])]
    refine ⟨[], ?_, by simp⟩
    rw [elements]
    have hat3 : At ((A ++ P) ++ ([] ++ 0 :: T)) (A ++ P).length [] := at_app (by simp)
    rw [nextElement_to hat3]
    simp only [if_true]
    simpa using wr_app (X := A ++ P) (Y := T) (c := 0) (v := 0)
  | cons c r =>
    rw [hb] at hbz hat2
    have hrd : rd (A ++ P ++ (c :: r ++ 0 :: T)) (A ++ P).length = some c := hat2.rd0
    rw [hrd]
    simp only [Option.bind_some]
    have hrz : 0 ∉ r := fun h => hbz (List.mem_cons_of_mem _ h)
    cases hc : isSep c with
    | true =>
      simp only [if_true]
      have hw : wr ((A ++ P) ++ (c :: r ++ 0 :: T)) (A ++ P).length sep = some ((A ++ P) ++ sep :: (r ++ 0 :: T)) := by
        simpa using wr_app (X := A ++ P) (Y := r ++ 0 :: T) (c := c) (v := sep)
      rw [hw]
      simp only [Option.bind_some]
      cases hun : (uncRest s).isSome with
      | true =>
        have hhead : A ++ P ≠ [] := by
          intro h
          have h1 := hP (List.append_eq_nil_iff.1 h).2
          -- a UNC prefix is not empty
          obtain ⟨x, hx⟩ := Option.isSome_iff_exists.1 hun
          have hdev : isDevice s = false := by
            cases hd : isDevice s with
            | false => rfl
            | true => rw [device_not_unc hd] at hx; simp at hx
          have h2 : root alpha s = [] := by simpa [head, hdev] using h1
          have h3 : rest alpha s = s := by have := root_rest alpha s; rw [h2] at this; simpa using this
          have h4 : rest alpha s = x := by simp [rest, hx]
          rw [h4] at h3
          subst h3
          unfold uncRest at hx
          split at hx
          · rename_i a b l'
            split at hx
            · split at hx
              · simp at hx
              · split at hx
                · rename_i r' hr'
                  simp only [Option.map_eq_some_iff] at hx
                  obtain ⟨w, hw, hw2⟩ := hx
                  have h5 := (afterShare_suffix w).length_le
                  have h6 : w.length + 4 ≤ r'.length := by
                    unfold afterUncWord at hw
                    split at hw
                    · split at hw
                      · injection hw with hw
                        subst hw
                        have := afterSeps_le ‹List Nat›
                        simp; omega
                      · simp at hw
                    · simp at hw
                  have h7 := (afterSsqs_suffix hr').length_le
                  rw [hw2] at h5
                  omega
                · injection hx with hx
                  have := ((afterShare_suffix _).trans (afterSeps_suffix l')).length_le
                  rw [hx] at this
                  simp at this; omega
            · simp at hx
          · simp at hx
        obtain ⟨T', k1, k2⟩ := elements_to ⟨sep, !isDevice s, eats alpha s, true, (A ++ P).length⟩ (A := A ++ P) (T := T)
          hhead rfl r hrz [sep] [] (fun _ _ h => by simp at h) 2147483647
        refine ⟨T', ?_, ?_⟩
        · simp only [if_true]
          rw [show (A ++ P).length + 1 - 1 = (A ++ P).length by omega]
          simp only [List.length_nil, List.length_cons, Nat.add_zero, Nat.zero_add, List.nil_append, List.cons_append] at k1
          rw [k1]
          simp
        · simp at k2 ⊢; omega
      | false =>
        obtain ⟨T', k1, k2⟩ := elements_to ⟨sep, !isDevice s, eats alpha s, false, (A ++ P ++ [sep]).length⟩ (A := A ++ P ++ [sep]) (T := T)
          (by simp) rfl r hrz [] [] (fun _ h => by simp at h) 2147483647
        refine ⟨T', ?_, ?_⟩
        · simp only [Bool.false_eq_true, if_false, Nat.sub_zero]
          rw [show (A ++ P).length + 1 = (A ++ P ++ [sep]).length by simp only [List.length_append, List.length_cons, List.length_nil],
            show (A ++ P) ++ sep :: (r ++ 0 :: T) = (A ++ P ++ [sep]) ++ (r ++ 0 :: T) by simp]
          simp only [List.length_nil, Nat.add_zero, List.nil_append] at k1
          rw [k1]
          simp
        · simp at k2 ⊢; omega
    | false =>
      simp only [Bool.false_eq_true, if_false]
      have hAP : A ++ P ≠ [] := by
        intro h
        obtain ⟨h1, h2⟩ := List.append_eq_nil_iff.1 h
        have h3 := hP h2
        rcases hA with h | h | ⟨d, hd1, hd2⟩
        · exact h h1
        · exact h h3
        · have := head_body alpha s
          rw [h3, hb] at this
          simp only [List.nil_append] at this
          rw [← this] at hd1
          simp at hd1
          rw [← hd1, hc] at hd2
          simp at hd2
      have hun : (uncRest s).isSome = false := by
        cases h : (uncRest s).isSome with
        | false => rfl
        | true =>
          exfalso
          have hdev : isDevice s = false := by
            cases hd : isDevice s with
            | false => rfl
            | true => rw [device_not_unc hd] at h; simp at h
          simp [hunc c r h hb hdev] at hc
      rw [hun]
      obtain ⟨T', k1, k2⟩ := elements_to ⟨sep, !isDevice s, eats alpha s, false, (A ++ P).length⟩ (A := A ++ P) (T := T)
        hAP rfl (c :: r) hbz [] [] (fun _ h => by simp at h) 0
      refine ⟨T', ?_, ?_⟩
      · simp only [List.length_nil, Nat.add_zero, List.nil_append] at k1
        rw [k1]; simp
      · simpa using k2

end Clink.Path
