import Verif.Proof.PathShape

/-!
C09: `path::normalise`.

`alpha` stands for `iswalpha`; all that is assumed of it is that NUL and separators are not letters.
-/

namespace Clink.Path

open StrCompare (isSep)
open Spec

/-- Called on a buffer that holds the string `s` (between other data `A` and `T`), `normalise` is
well defined and leaves the string `s'` there; nothing before the string and nothing behind its old
terminator is touched. -/
def Normalises (alpha : Nat → Bool) (sep : Nat) (A s s' : List Nat) : Prop :=
  0 ∉ s' ∧ ∀ T, ∃ T', normalise alpha sep (A ++ (s ++ 0 :: T)) A.length = some (A ++ (s' ++ 0 :: (T' ++ T)))
    ∧ s'.length + T'.length = s.length

structure AlphaOk (alpha : Nat → Bool) : Prop where
  zero : alpha 0 = false
  sep : ∀ c, isSep c = true → alpha c = false

theorem stepL_noZero {sep : Nat} (hs : sep ≠ 0) {dots eat unc : Bool} {s : List Nat × Nat} {e : List Nat × Bool}
    (h : 0 ∉ s.1) (he : 0 ∉ e.1) : 0 ∉ (stepL sep dots eat unc s e).1 := by
  have hput : ∀ o n m, 0 ∉ o → 0 ∉ n → 0 ∉ put sep unc o n m := by
    intro o n m h1 h2
    unfold put
    simp only [List.mem_append, not_or]
    refine ⟨⟨?_, h2⟩, ?_⟩
    · split
      · simpa using fun h => hs h.symm
      · exact h1
    · split
      · simpa using fun h => hs h.symm
      · simp
  unfold stepL
  split
  · exact h
  · split
    · split
      · exact fun hz => h ((pop_prefix s.1).subset hz)
      · split
        · exact h
        · exact hput _ _ _ h he
    · exact hput _ _ _ h he

theorem fold_noZero {sep : Nat} (hs : sep ≠ 0) {dots eat unc : Bool} (es : List (List Nat × Bool)) {s : List Nat × Nat}
    (h : 0 ∉ s.1) (he : ∀ e ∈ es, 0 ∉ e.1) : 0 ∉ (es.foldl (stepL sep dots eat unc) s).1 := by
  induction es generalizing s with
  | nil => exact h
  | cons e es ih =>
    exact ih (stepL_noZero hs h (he e (by simp))) fun x hx => he x (List.mem_cons_of_mem _ hx)

theorem elems_noZero (r : List Nat) (h : 0 ∉ r) : ∀ e ∈ elems r, 0 ∉ e.1 := by
  fun_induction elems r with
  | case1 => simp
  | case2 c l ih =>
    intro e he
    rcases List.mem_cons.1 he with rfl | he
    · intro hz
      have : nameOf (c :: l) <+: afterSeps (c :: l) := List.takeWhile_prefix _
      exact h ((afterSeps_suffix _).subset (this.subset hz))
    · exact ih (fun hz => h (((List.drop_suffix _ _).trans ((fromSep_suffix _).trans (afterSeps_suffix _))).subset hz)) e he

theorem isSep_ne_zero {c : Nat} (h : isSep c = true) : c ≠ 0 := by rintro rfl; simp [isSep] at h

theorem newBody_noZero {alpha : Nat → Bool} {sep : Nat} (hs : isSep sep = true) {s : List Nat} (h : 0 ∉ s) :
    0 ∉ newBody alpha sep s := by
  have hs0 := isSep_ne_zero hs
  have hb : 0 ∉ body alpha s := fun hz => h (by rw [← head_body alpha s]; exact List.mem_append_right _ hz)
  unfold newBody
  split
  · simp
  · rename_i c r heq
    rw [heq] at hb
    have hr : 0 ∉ r := fun hz => hb (List.mem_cons_of_mem _ hz)
    split
    · split
      · exact fold_noZero hs0 _ (by simpa using fun h => hs0 h.symm) (elems_noZero r hr)
      · rw [List.mem_cons, not_or]
        exact ⟨fun h => hs0 h.symm, fold_noZero hs0 _ (by simp) (elems_noZero r hr)⟩
    · exact fold_noZero hs0 _ (by simp) (elems_noZero _ hb)

theorem squash_mem {l : List Nat} {c : Nat} (h : c ∈ squash l) : c ∈ l := by
  fun_induction squash l with
  | case1 => simp at h
  | case2 d l hd ih =>
    rcases List.mem_cons.1 h with rfl | h
    · simp
    · exact List.mem_cons_of_mem _ ((afterSeps_suffix l).subset (ih h))
  | case3 d l hd ih =>
    rcases List.mem_cons.1 h with rfl | h
    · simp
    · exact List.mem_cons_of_mem _ (ih h)

theorem newPrefix_noZero {k : Nat} {h : List Nat} (hz : 0 ∉ h) : 0 ∉ newPrefix k h := by
  unfold newPrefix
  simp only [List.mem_append, not_or]
  exact ⟨fun x => hz (List.mem_of_mem_take x), fun x => hz (List.mem_of_mem_drop (squash_mem x)),
    fun x => hz (List.mem_of_mem_drop (List.mem_of_mem_drop x))⟩

theorem normalises {alpha : Nat → Bool} (ha : AlphaOk alpha) {sep : Nat} (hs : isSep sep = true) {A s : List Nat} (hz : 0 ∉ s)
    (hA : A ≠ [] ∨ head alpha s ≠ [] ∨ startsSep s = true) :
    Normalises alpha sep A s (newPrefix (keep s (head alpha s)) (head alpha s) ++ newBody alpha sep s) := by
  have hh : 0 ∉ head alpha s := fun x => hz (by rw [← head_body alpha s]; exact List.mem_append_left _ x)
  have hA' : A ≠ [] ∨ head alpha s ≠ [] ∨ ∃ c, s.head? = some c ∧ isSep c = true := by
    rcases hA with h | h | h
    · exact .inl h
    · exact .inr (.inl h)
    · right; right
      cases s with
      | nil => simp [startsSep] at h
      | cons c s => exact ⟨c, rfl, h⟩
  refine ⟨?_, fun T => ?_⟩
  · simp only [List.mem_append, not_or]
    exact ⟨newPrefix_noZero hh, newBody_noZero hs hz⟩
  · obtain ⟨T', h1, h2⟩ := normalise_to ha.sep ha.zero (T := T) hz hA' (sep := sep)
    refine ⟨T', h1, ?_⟩
    have := congrArg List.length (head_body alpha s)
    simp only [List.length_append, newPrefix_length] at this ⊢
    omega

theorem Normalises.unique {alpha : Nat → Bool} {sep : Nat} {A s s1 s2 : List Nat}
    (h1 : Normalises alpha sep A s s1) (h2 : Normalises alpha sep A s s2) : s1 = s2 := by
  obtain ⟨T1, e1, -⟩ := h1.2 []
  obtain ⟨T2, e2, -⟩ := h2.2 []
  rw [e1] at e2
  simp only [Option.some.injEq, List.append_cancel_left_eq] at e2
  have key : ∀ (a b x y : List Nat), 0 ∉ a → 0 ∉ b → a ++ 0 :: x = b ++ 0 :: y → a = b := by
    intro a
    induction a with
    | nil =>
      intro b x y _ hb h
      cases b with
      | nil => rfl
      | cons c b => simp at h; exact absurd (h.1 ▸ List.mem_cons_self) hb
    | cons c a ih =>
      intro b x y ha hb h
      cases b with
      | nil => simp at h; exact absurd (h.1 ▸ List.mem_cons_self) ha
      | cons d b =>
        simp only [List.cons_append, List.cons.injEq] at h
        rw [h.1, ih b x y (fun m => ha (List.mem_cons_of_mem _ m)) (fun m => hb (List.mem_cons_of_mem _ m)) h.2]
  exact key _ _ _ _ h1.1 h2.1 e2

/-- C09: normalising any string in place is well defined, stays inside the string and does not make it
longer, provided a byte in front of the string may be read or the string begins with a drive, a UNC
prefix or a separator. -/
theorem C09_in_place {alpha : Nat → Bool} (ha : AlphaOk alpha) {sep : Nat} (hs : isSep sep = true) (A s : List Nat) (hz : 0 ∉ s)
    (hA : A ≠ [] ∨ root alpha s ≠ [] ∨ startsSep s = true) :
    ∃ s', Normalises alpha sep A s s' ∧ s'.length ≤ s.length := by
  have hA' : A ≠ [] ∨ head alpha s ≠ [] ∨ startsSep s = true := by
    rcases hA with h | h | h
    · exact .inl h
    · cases hd : isDevice s with
      | false => right; left; simpa [head, hd] using h
      | true =>
        right; right
        unfold isDevice at hd
        split at hd
        · simp only [Bool.and_eq_true] at hd; exact hd.1.1
        · simp at hd
    · exact .inr (.inr h)
  have h := normalises ha hs hz hA'
  refine ⟨_, h, ?_⟩
  obtain ⟨T', -, h2⟩ := h.2 []
  omega

theorem squash_noDouble {l : List Nat} (h : NoDouble l) : squash l = l := by
  fun_induction squash l with
  | case1 => rfl
  | case2 c l hc ih =>
    have : afterSeps l = l := by
      cases l with
      | nil => rfl
      | cons d l =>
        have h1 := h.1
        cases hd : isSep d with
        | true => exact absurd ⟨hc, hd⟩ h1
        | false => simp [afterSeps, hd]
    rw [this] at ih ⊢
    rw [ih]
    cases l with
    | nil => simp [NoDouble]
    | cons d l => exact h.2
  | case3 c l hc ih =>
    rw [ih]
    cases l with
    | nil => simp [NoDouble]
    | cons d l => exact h.2

/-- The prefix is written with single separators (after the first two). -/
def PrefixOk (alpha : Nat → Bool) (s : List Nat) : Prop :=
  isDevice s = false ∧ NoDouble ((root alpha s).drop (if twoSeps s then 2 else 0))

theorem newPrefix_ok {alpha : Nat → Bool} {s : List Nat} (h : PrefixOk alpha s) :
    newPrefix (keep s (head alpha s)) (head alpha s) = root alpha s := by
  have hh : head alpha s = root alpha s := by simp [head, h.1]
  rw [hh]
  by_cases hr : root alpha s = []
  · rw [hr]; simp [newPrefix, squash]
  have hk : keep s (root alpha s) = if twoSeps s then 2 else 0 := by
    unfold keep
    cases twoSeps s <;> simp [hr]
  unfold newPrefix
  rw [hk, squash_noDouble h.2, List.drop_of_length_le (Nat.le_refl _), List.append_nil, List.take_append_drop]

theorem startsSep_cons {l : List Nat} : startsSep l = true ↔ ∃ c r, l = c :: r ∧ isSep c = true := by
  cases l with
  | nil => simp [startsSep]
  | cons c l => simp [startsSep]

/-- A relative rest after two separators only occurs after `\\?\`. -/
theorem eats_eq {alpha : Nat → Bool} (ha : AlphaOk alpha) {s : List Nat} (hd : isDevice s = false)
    (h : rest alpha s ≠ []) (hr : startsSep (rest alpha s) = false) :
    eats alpha s = startsSep s := by
  have hrr := root_rest alpha s
  have hh : head alpha s = root alpha s := by simp [head, hd]
  unfold eats
  rw [hh]
  by_cases hroot : root alpha s = []
  · rw [hroot, List.nil_append] at hrr
    rw [hrr] at hr
    simp [hroot, hr]
  · cases ht : twoSeps s with
    | false =>
      have : startsSep s = false := by
        -- the prefix is a drive letter
        cases hs : startsSep s with
        | false => rfl
        | true =>
          exfalso
          obtain ⟨c, r, rfl, hc⟩ := startsSep_cons.1 hs
          apply hroot
          have hu : uncRest (c :: r) = none := by
            cases r with
            | nil => simp [uncRest]
            | cons d r => simp [twoSeps, hc] at ht; simp [uncRest, ht]
          have hq : afterSsqs (c :: r) = none := by
            unfold afterSsqs
            split
            · rename_i heq
              simp only [List.cons.injEq] at heq
              obtain ⟨rfl, rfl⟩ := heq
              simp [twoSeps, hc] at ht
              simp [ht]
            · rfl
          have : rest alpha (c :: r) = c :: r := by
            simp only [rest, hu, hq, Option.getD_none]
            unfold afterLetter
            split
            · rename_i heq
              simp only [List.cons.injEq] at heq
              rw [← heq.1, ha.sep c hc]; simp [heq]
            · rfl
          unfold root
          rw [this]; simp
      simp [this]
    | true =>
      have hsep : startsSep s = true := by
        unfold twoSeps at ht
        split at ht
        · simp only [Bool.and_eq_true] at ht; exact ht.1
        · simp at ht
      rw [hsep]
      have hu : uncRest s = none := by
        cases hu : uncRest s with
        | none => rfl
        | some x =>
          exfalso
          have hx : rest alpha s = x := by simp [rest, hu]
          obtain ⟨c, l, hc⟩ := List.exists_cons_of_ne_nil h
          have := unc_rest_head hu (hx.symm.trans hc)
          rw [hc] at hr
          simp [startsSep, this] at hr
      have hq : (afterSsqs s).isSome = true := by
        cases hq : afterSsqs s with
        | some r => rfl
        | none =>
          exfalso
          apply hroot
          have : rest alpha s = s := by
            simp only [rest, hu, hq, Option.getD_none]
            unfold afterLetter
            split
            · simp [startsSep] at hsep
              rw [ha.sep _ hsep]; simp
            · rfl
          unfold root
          rw [this]; simp
      obtain ⟨r, hr'⟩ := Option.isSome_iff_exists.1 hq
      unfold afterSsqs at hr'
      split at hr'
      · simp [hroot]
      · simp at hr'

theorem unc_unrooted {alpha : Nat → Bool} {s : List Nat} (h : rest alpha s ≠ [])
    (hr : startsSep (rest alpha s) = false) : uncRest s = none := by
  cases hu : uncRest s with
  | none => rfl
  | some x =>
    exfalso
    have hx : rest alpha s = x := by simp [rest, hu]
    obtain ⟨c, l, hc⟩ := List.exists_cons_of_ne_nil h
    have := unc_rest_head hu (hx.symm.trans hc)
    rw [hc] at hr
    simp [startsSep, this] at hr

/-- What the part after the prefix becomes. -/
structure Result (alpha : Nat → Bool) (sep : Nat) (s t : List Nat) : Prop where
  /-- the components are resolved; nothing is above a root -/
  comps : names t = resolve (startsSep s || startsSep (rest alpha s)) (names (rest alpha s))
  /-- single separators of the wanted kind, at the start only if there was one -/
  shape : Shape sep (startsSep (rest alpha s)) t
  /-- a trailing separator is kept -/
  closed : ∀ c, (rest alpha s).getLast? = some c → isSep c = true → t = [] ∨ t.getLast? = some sep
  /-- a trailing name stays last -/
  opened : ∀ c n, (rest alpha s).getLast? = some c → isSep c = false → (names (rest alpha s)).getLast? = some n →
    n ≠ [46] → n ≠ [46, 46] → n <:+ t

theorem names_cons_sep {c : Nat} (hc : isSep c = true) (x : List Nat) : names (c :: x) = names x := by
  have := names_append_sep hc [] x
  simpa [names_nil] using this

theorem newBody_result {alpha : Nat → Bool} (ha : AlphaOk alpha) {sep : Nat} (hs : isSep sep = true) {s : List Nat}
    (hlen : s.length < 1073741824) (hd : isDevice s = false)
    (hdot : startsSep (rest alpha s) = false → ∀ n ∈ names (rest alpha s), dotName n = false) :
    Result alpha sep s (newBody alpha sep s) := by
  have hb : body alpha s = rest alpha s := by simp [body, hd]
  have hll := (rest_suffix alpha s).length_le
  cases hr : rest alpha s with
  | nil =>
    have : newBody alpha sep s = [] := by simp [newBody, hb, hr]
    rw [this]
    refine ⟨by simp [hr, resolve, names_nil], ?_, by simp [hr], by simp [hr]⟩
    rw [hr]
    exact ⟨by simp, by simp [NoDouble], rfl⟩
  | cons c r =>
    rw [hr] at hll
    cases hc : isSep c with
    | true =>
      have hst : startsSep (rest alpha s) = true := by rw [hr]; exact hc
      have hnames : names (rest alpha s) = names r := by rw [hr]; exact names_cons_sep hc r
      have hcl : (startsSep s || startsSep (rest alpha s)) = true := by rw [hst]; simp
      have hlast : ∀ d, (rest alpha s).getLast? = some d → (r = [] ∧ d = c) ∨ r.getLast? = some d := by
        intro d h
        rw [hr] at h
        cases r with
        | nil => left; simpa using h.symm
        | cons x r => right; simpa [List.getLast?_cons] using h
      cases hu : (uncRest s).isSome with
      | true =>
        have e : newBody alpha sep s = ((elems r).foldl (stepL sep true (eats alpha s) true) ([sep], 2147483647)).1 := by
          simp [newBody, hb, hr, hc, hu, hd]
        rw [e]
        obtain ⟨f1, f2, f3, f4⟩ := fold_sem hs (eat := eats alpha s) (big := true) (unc := true) r (by simp) (st := []) (out := [sep]) (count := 2147483647) (k := 0)
          (by simp) (by simp at hll; omega) (.inr ⟨rfl, .inl rfl⟩) ⟨by simp, by omega, by omega⟩
        obtain ⟨g1, g2⟩ := shape_of hs f1 f2
        simp only [Bool.true_or] at f1 f2 f3 f4 g1 g2
        refine ⟨?_, ?_, ?_, ?_⟩
        · rw [hcl, hnames]; exact g2
        · rw [hst]; exact g1
        · intro d h1 h2
          rcases hlast d h1 with ⟨rfl, rfl⟩ | h
          · right; simp [elems]
          · exact closed_ends (f3 d h h2)
        · intro d n h1 h2 h3 h4 h5
          rw [hnames] at h3
          rcases hlast d h1 with ⟨rfl, rfl⟩ | h
          · simp [names_nil] at h3
          · obtain ⟨g3, st0, g4⟩ := f4 d n h h2 h3 h4 h5
            exact open_ends g3 g4
      | false =>
        have e : newBody alpha sep s = sep :: ((elems r).foldl (stepL sep true (eats alpha s) false) ([], 2147483647)).1 := by
          simp [newBody, hb, hr, hc, hu, hd]
        rw [e]
        obtain ⟨f1, f2, f3, f4⟩ := fold_sem hs (eat := eats alpha s) (big := true) (unc := false) r (by simp) (st := []) (out := []) (count := 2147483647) (k := 0)
          (by simp) (by simp at hll; omega) (.inl ⟨rfl, rfl⟩) ⟨by simp, by omega, by omega⟩
        obtain ⟨g1, g2⟩ := shape_of hs f1 f2
        simp only [Bool.true_or] at f1 f2 f3 f4 g1 g2
        refine ⟨?_, ?_, ?_, ?_⟩
        · rw [hcl, hnames, names_cons_sep hs]; exact g2
        · rw [hst]; exact .inr ⟨_, rfl, g1⟩
        · intro d h1 h2
          right
          rcases hlast d h1 with ⟨rfl, rfl⟩ | h
          · simp [elems]
          · rcases closed_ends (f3 d h h2) with h' | h'
            · rw [h']; rfl
            · rw [List.getLast?_cons, h']; rfl
        · intro d n h1 h2 h3 h4 h5
          rw [hnames] at h3
          rcases hlast d h1 with ⟨rfl, rfl⟩ | h
          · simp [names_nil] at h3
          · obtain ⟨g3, st0, g4⟩ := f4 d n h h2 h3 h4 h5
            exact (open_ends g3 g4).trans (List.suffix_cons _ _)
    | false =>
      have hst : startsSep (rest alpha s) = false := by rw [hr]; exact hc
      have hne : rest alpha s ≠ [] := by rw [hr]; simp
      have hu := unc_unrooted hne hst
      have he := eats_eq ha hd hne hst
      have e : newBody alpha sep s = ((elems (rest alpha s)).foldl (stepL sep true (startsSep s) false) ([], 0)).1 := by
        rw [← he]
        simp [newBody, hb, hr, hc, hu, hd]
      rw [e]
      obtain ⟨f1, f2, f3, f4⟩ := fold_sem hs (eat := startsSep s) (big := false) (unc := false) (rest alpha s) (fun _ => hdot hst) (st := []) (out := []) (count := 0) (k := 0)
          (by simp) (by rw [hr]; simp at hll ⊢; omega) (.inl ⟨rfl, rfl⟩) ⟨[], 0, rfl, by simp, rfl, fun _ => rfl, by omega⟩
      obtain ⟨g1, g2⟩ := shape_of hs f1 f2
      simp only [Bool.false_or] at f1 f2 f3 f4 g1 g2
      refine ⟨?_, ?_, ?_, ?_⟩
      · rw [hst, Bool.or_false]; exact g2
      · rw [hst]; exact g1
      · intro d h1 h2; exact closed_ends (f3 d h1 h2)
      · intro d n h1 h2 h3 h4 h5
        obtain ⟨g3, st0, g4⟩ := f4 d n h1 h2 h3 h4 h5
        exact open_ends g3 g4

/-- C09: what normalisation does.  The prefix (drive, UNC root, `\\?\`) stays as it is, the components
behind it are resolved, only single separators of the requested kind remain, and a trailing separator
or name stays.  Needed: the prefix contains no repeated separators, it is no device path, and either the
path is rooted or no name begins with a dot. -/
theorem C09_components {alpha : Nat → Bool} (ha : AlphaOk alpha) {sep : Nat} (hs : isSep sep = true) {A s s' : List Nat} (hz : 0 ∉ s)
    (hlen : s.length < 1073741824) (hp : PrefixOk alpha s)
    (hdot : startsSep (rest alpha s) = true ∨ ∀ n ∈ names (rest alpha s), dotName n = false)
    (hA : A ≠ [] ∨ root alpha s ≠ [] ∨ startsSep s = true)
    (h : Normalises alpha sep A s s') :
    ∃ t, s' = root alpha s ++ t ∧ Result alpha sep s t := by
  have hh : head alpha s = root alpha s := by simp [head, hp.1]
  have h1 := normalises ha hs hz (by rw [hh]; exact hA)
  have h2 := h.unique h1
  rw [newPrefix_ok hp] at h2
  refine ⟨_, h2, newBody_result ha hs hlen hp.1 ?_⟩
  intro hst
  rcases hdot with h | h
  · rw [hst] at h; simp at h
  · exact h

/-- C09: after resolution `.` is gone, and `..` is only left in front of a path that is not rooted. -/
theorem C09_no_dots {alpha : Nat → Bool} {sep : Nat} {s t : List Nat} (h : Result alpha sep s t) :
    ∃ j ps, names t = List.replicate j [46, 46] ++ ps ∧ (∀ n ∈ ps, n ≠ [46] ∧ n ≠ [46, 46]) ∧
      ((startsSep s || startsSep (rest alpha s)) = true → j = 0) := by
  obtain ⟨ps, j, h1, h2, h3⟩ := resolve_shape (startsSep s || startsSep (rest alpha s)) (names (rest alpha s))
  exact ⟨j, ps, h.comps.trans h1, h2, h3⟩

theorem root_nil_rest {alpha : Nat → Bool} {s : List Nat} (h : root alpha s = []) : rest alpha s = s := by
  have := root_rest alpha s
  rwa [h, List.nil_append] at this

/-- A device path has no other prefix. -/
theorem device_root {alpha : Nat → Bool} (ha : AlphaOk alpha) {s : List Nat} (h : isDevice s = true) : root alpha s = [] := by
  have hu := device_not_unc h
  unfold isDevice at h
  split at h
  · rename_i a b d l
    simp only [Bool.and_eq_true] at h
    have hb : b ≠ 58 := by rintro rfl; simp [isSep] at h
    have : rest alpha (a :: b :: 46 :: d :: l) = a :: b :: 46 :: d :: l := by
      simp only [rest, hu, afterSsqs, Option.getD_none]
      unfold afterLetter
      split
      · rename_i heq; simp only [List.cons.injEq] at heq; exact absurd heq.2.1 hb
      · rfl
    unfold root
    rw [this]; simp
  · simp at h

theorem startsSep_append {x y : List Nat} (h : x ≠ []) : startsSep (x ++ y) = startsSep x := by
  cases x with
  | nil => simp at h
  | cons c x => rfl

theorem twoSeps_append {x y : List Nat} (h : 2 ≤ x.length) : twoSeps (x ++ y) = twoSeps x := by
  rcases x with _ | ⟨a, _ | ⟨b, x⟩⟩
  · simp at h
  · simp at h
  · rfl

theorem squash_small {alpha : Nat → Bool} {s : List Nat} (h : root alpha s = []) : PrefixOk alpha s ↔ isDevice s = false := by
  simp [PrefixOk, h, NoDouble]

/-- C09: normalising twice is the same as normalising once, provided the shortened text is still
divided into prefix and rest at the same place (e.g. `./c:./x` becomes `c:./x`, which is not). -/
theorem C09_idempotent {alpha : Nat → Bool} (ha : AlphaOk alpha) {sep : Nat} (hs : isSep sep = true) {A s s' : List Nat} (hz : 0 ∉ s)
    (hlen : s.length < 1073741824) (hp : PrefixOk alpha s)
    (hdot : startsSep (rest alpha s) = true ∨ ∀ n ∈ names (rest alpha s), dotName n = false)
    (hA : A ≠ []) (hroot : root alpha s' = root alpha s)
    (h : Normalises alpha sep A s s') :
    Normalises alpha sep A s' s' := by
  obtain ⟨t, ht, hres⟩ := C09_components ha hs hz hlen hp hdot (.inl hA) h
  have hz' : 0 ∉ s' := h.1
  have hrest : rest alpha s' = t := by
    have := root_rest alpha s'
    rw [hroot] at this
    conv at this => rhs; rw [ht]
    exact List.append_cancel_left this
  have hshape := hres.shape
  -- the new string is no device path
  have hdev : isDevice s' = false := by
    cases hd : isDevice s' with
    | false => rfl
    | true =>
      exfalso
      have hr0 := device_root ha hd
      rw [hroot] at hr0
      rw [hr0, List.nil_append] at ht
      subst ht
      unfold isDevice at hd
      split at hd
      · rename_i a b d l
        simp only [Bool.and_eq_true] at hd
        unfold Shape at hshape
        split at hshape
        · rcases hshape with h | ⟨u, h, hu⟩
          · simp at h
          · simp only [List.cons.injEq] at h
            have := hu.start
            rw [← h.2] at this
            simp [startsSep, hd.1.2] at this
        · have := hshape.start
          simp [startsSep, hd.1.1] at this
      · simp at hd
  have htwo : root alpha s ≠ [] → twoSeps s' = true → twoSeps s = true ∧ 2 ≤ (root alpha s).length := by
    intro hne h2
    have hl := root_two ha.sep h2 (by rw [hroot]; exact hne)
    rw [hroot] at hl
    refine ⟨?_, hl⟩
    have e1 : twoSeps s = twoSeps (root alpha s) := by
      conv => lhs; rw [← root_rest alpha s]
      exact twoSeps_append hl
    have e2 : twoSeps s' = twoSeps (root alpha s) := by rw [ht]; exact twoSeps_append hl
    rw [e1, ← e2]; exact h2
  have hp' : PrefixOk alpha s' := by
    refine ⟨hdev, ?_⟩
    rw [hroot]
    by_cases hne : root alpha s = []
    · rw [hne]; simp [NoDouble]
    · cases h2 : twoSeps s' with
      | true =>
        have := hp.2
        rw [(htwo hne h2).1] at this
        exact this
      | false =>
        have := hp.2
        cases h3 : twoSeps s with
        | false => rw [h3] at this; exact this
        | true =>
          exfalso
          have hl := root_two ha.sep h3 hne
          have e1 : twoSeps s = twoSeps (root alpha s) := by
            conv => lhs; rw [← root_rest alpha s]
            exact twoSeps_append hl
          have e2 : twoSeps s' = twoSeps (root alpha s) := by rw [ht]; exact twoSeps_append hl
          rw [← e1, h3, h2] at e2
          simp at e2
  have hmain := normalises ha hs hz' (.inl hA) (A := A)
  rw [newPrefix_ok hp', hroot] at hmain
  suffices hb : newBody alpha sep s' = t by
    rw [hb, ← ht] at hmain; exact hmain
  obtain ⟨j, ps, hn1, hn2, hn3⟩ := C09_no_dots hres
  have hb : body alpha s' = t := by simp [body, hdev, hrest]
  cases t with
  | nil => simp [newBody, hb]
  | cons c u =>
    cases hc : isSep c with
    | true =>
      have hst : startsSep (rest alpha s) = true := by
        cases hst : startsSep (rest alpha s) with
        | true => rfl
        | false =>
          rw [hst] at hshape
          have := Plain.start (show Plain sep (c :: u) from hshape)
          simp [startsSep, hc] at this
      rw [hst] at hshape
      obtain ⟨u', h1, hu⟩ : ∃ u', c :: u = sep :: u' ∧ Plain sep u' := by
        rcases (show c :: u = [] ∨ ∃ u', c :: u = sep :: u' ∧ Plain sep u' from hshape) with h | h
        · simp at h
        · exact h
      simp only [List.cons.injEq] at h1
      obtain ⟨rfl, rfl⟩ := h1
      have hj := hn3 (by rw [hst]; simp)
      subst hj
      have hnm : ∀ n ∈ names u, n ≠ [46] ∧ n ≠ [46, 46] := by
        intro n hn
        rw [names_cons_sep hs] at hn1
        rw [hn1] at hn
        exact hn2 n (by simpa using hn)
      cases hu2 : (uncRest s').isSome with
      | true =>
        have := fold_noop (eat := eats alpha s') (unc := true) u hu [c] 2147483647 (by simp) (.inl hnm)
        simp only [newBody, hb, hc, hu2, hdev, if_true, Bool.not_false]
        rw [this]; rfl
      | false =>
        have := fold_noop (eat := eats alpha s') (unc := false) u hu [] 2147483647 (by simp) (.inl hnm)
        simp only [newBody, hb, hc, hu2, hdev, if_true, Bool.not_false, Bool.false_eq_true, if_false]
        rw [this]; rfl
    | false =>
      have hst : startsSep (rest alpha s) = false := by
        cases hst : startsSep (rest alpha s) with
        | false => rfl
        | true =>
          rw [hst] at hshape
          rcases (show c :: u = [] ∨ ∃ u', c :: u = sep :: u' ∧ Plain sep u' from hshape) with h | ⟨u', h, -⟩
          · simp at h
          · simp only [List.cons.injEq] at h
            rw [h.1, hs] at hc; simp at hc
      rw [hst] at hshape
      have hpl : Plain sep (c :: u) := hshape
      have hst' : startsSep (rest alpha s') = false := by rw [hrest]; exact hc
      have hne' : rest alpha s' ≠ [] := by rw [hrest]; simp
      have hu := unc_unrooted hne' hst'
      have he := eats_eq ha hdev hne' hst'
      have hss : startsSep s' = true → startsSep s = true := by
        intro h1
        by_cases hne : root alpha s = []
        · rw [hne, List.nil_append] at ht
          rw [ht] at h1; simp [startsSep, hc] at h1
        · rw [ht, startsSep_append hne] at h1
          rw [← root_rest alpha s, startsSep_append hne]; exact h1
      have hnm : (∀ n ∈ names (c :: u), n ≠ [46] ∧ n ≠ [46, 46]) ∨
          ((0 : Nat) = 0 ∧ startsSep s' = false ∧ ∃ j ps, names (c :: u) = List.replicate j [46, 46] ++ ps ∧ ∀ n ∈ ps, n ≠ [46] ∧ n ≠ [46, 46]) := by
        cases h1 : startsSep s' with
        | true =>
          left
          have := hn3 (by rw [hss h1]; simp)
          subst this
          intro n hn
          rw [hn1] at hn
          exact hn2 n (by simpa using hn)
        | false => exact .inr ⟨rfl, rfl, j, ps, hn1, hn2⟩
      have := fold_noop (eat := startsSep s') (unc := false) (c :: u) hpl [] 0 (by simp) hnm
      have e : newBody alpha sep s' = ((elems (c :: u)).foldl (stepL sep true (startsSep s') false) ([], 0)).1 := by
        rw [← he]
        simp [newBody, hb, hc, hu, hdev]
      rw [e, this]; rfl

/-- A path on a drive keeps being one. -/
theorem root_drive {alpha : Nat → Bool} (ha : AlphaOk alpha) {c : Nat} (hc : alpha c = true) (t : List Nat) :
    root alpha (c :: 58 :: t) = [c, 58] := by
  have hcs : isSep c = false := by
    cases h : isSep c with
    | false => rfl
    | true => rw [ha.sep c h] at hc; simp at hc
  have hu : uncRest (c :: 58 :: t) = none := by simp [uncRest, hcs]
  have hq : afterSsqs (c :: 58 :: t) = none := by
    unfold afterSsqs
    split
    · rename_i heq
      simp only [List.cons.injEq] at heq
      rw [← heq.1, hcs]; simp
    · rfl
  have : rest alpha (c :: 58 :: t) = t := by simp [rest, hu, hq, afterLetter, hc]
  unfold root
  rw [this, show (c :: 58 :: t).length - t.length = 2 by simp only [List.length_cons]; omega]
  rfl

/-- A string that begins with one separator has no prefix. -/
theorem root_single {alpha : Nat → Bool} (ha : AlphaOk alpha) {c : Nat} (hc : isSep c = true) {t : List Nat}
    (h : startsSep t = false) : root alpha (c :: t) = [] := by
  have hu : uncRest (c :: t) = none := by
    cases t with
    | nil => simp [uncRest]
    | cons d t => have : isSep d = false := h; simp [uncRest, this]
  have hq : afterSsqs (c :: t) = none := by
    unfold afterSsqs
    split
    · rename_i heq
      simp only [List.cons.injEq] at heq
      rw [heq.2] at h
      have : isSep _ = false := h
      rw [this]; simp
    · rfl
  have : rest alpha (c :: t) = c :: t := by
    simp only [rest, hu, hq, Option.getD_none]
    unfold afterLetter
    split
    · rename_i heq
      simp only [List.cons.injEq] at heq
      rw [← heq.1, ha.sep c hc]; simp [heq]
    · rfl
  unfold root
  rw [this]; simp

/-- C09: an absolute path on a drive; normalising it twice is the same as once.  No further conditions. -/
theorem C09_idempotent_drive {alpha : Nat → Bool} (ha : AlphaOk alpha) {sep : Nat} (hs : isSep sep = true) {A s' r : List Nat} {c d : Nat}
    (hc : alpha c = true) (hd : isSep d = true) (hz : 0 ∉ c :: 58 :: d :: r) (hlen : r.length < 1000000000)
    (hA : A ≠ []) (h : Normalises alpha sep A (c :: 58 :: d :: r) s') :
    Normalises alpha sep A s' s' := by
  have hr := root_drive ha hc (d :: r)
  have hrest : rest alpha (c :: 58 :: d :: r) = d :: r := by
    have := root_rest alpha (c :: 58 :: d :: r)
    rw [hr] at this
    exact List.append_cancel_left this
  have hcs : isSep c = false := by
    cases h : isSep c with
    | false => rfl
    | true => rw [ha.sep c h] at hc; simp at hc
  have hp : PrefixOk alpha (c :: 58 :: d :: r) := by
    constructor
    · unfold isDevice
      split
      · rename_i heq; simp only [List.cons.injEq] at heq; rw [← heq.1, hcs]; simp
      · rfl
    · rw [hr]; simp [twoSeps, hcs, NoDouble]
  have hdot : startsSep (rest alpha (c :: 58 :: d :: r)) = true ∨ ∀ n ∈ names (rest alpha (c :: 58 :: d :: r)), dotName n = false := by
    left; rw [hrest]; exact hd
  have hl : (c :: 58 :: d :: r).length < 1073741824 := by simp; omega
  obtain ⟨t, ht, -⟩ := C09_components ha hs hz hl hp hdot (.inl hA) h
  refine C09_idempotent ha hs hz hl hp hdot hA ?_ h
  rw [ht, hr]
  exact root_drive ha hc t

/-- C09: the same for a path that begins with exactly one separator. -/
theorem C09_idempotent_rooted {alpha : Nat → Bool} (ha : AlphaOk alpha) {sep : Nat} (hs : isSep sep = true) {A s' r : List Nat} {d : Nat}
    (hd : isSep d = true) (hr : startsSep r = false) (hz : 0 ∉ d :: r) (hlen : r.length < 1000000000)
    (hA : A ≠ []) (h : Normalises alpha sep A (d :: r) s') :
    Normalises alpha sep A s' s' := by
  have hroot := root_single ha hd hr
  have hrest := root_nil_rest hroot
  have hp : PrefixOk alpha (d :: r) := by
    rw [squash_small hroot]
    unfold isDevice
    split
    · rename_i heq
      simp only [List.cons.injEq] at heq
      rw [heq.2] at hr
      have : isSep _ = false := hr
      rw [this]; simp
    · rfl
  have hdot : startsSep (rest alpha (d :: r)) = true ∨ ∀ n ∈ names (rest alpha (d :: r)), dotName n = false := by
    left; rw [hrest]; exact hd
  have hl : (d :: r).length < 1073741824 := by simp; omega
  obtain ⟨t, ht, hres⟩ := C09_components ha hs hz hl hp hdot (.inl hA) h
  refine C09_idempotent ha hs hz hl hp hdot hA ?_ h
  rw [ht, hroot, List.nil_append]
  have := hres.shape
  rw [hrest, show startsSep (d :: r) = true from hd] at this
  rcases (show t = [] ∨ ∃ u, t = sep :: u ∧ Plain sep u from this) with rfl | ⟨u, rfl, hu⟩
  · simp [root]
  · exact root_single ha hs hu.start

/-! Concrete instances, and where the code departs from the property. -/

private def bs (s : String) : List Nat := s.toList.map Char.toNat
private def az (c : Nat) : Bool := (65 ≤ c && c ≤ 90) || (97 ≤ c && c ≤ 122)

private theorem az_ok : AlphaOk az := by
  refine ⟨by decide, fun c hc => ?_⟩
  have : c = 47 ∨ c = 92 := by simpa [isSep, Bool.or_eq_true] using hc
  rcases this with rfl | rfl <;> decide

/-- The string left in the buffer. -/
private def norm (sep : Nat) (A s : List Nat) : Option (List Nat) :=
  (normalise az sep (A ++ (s ++ [0])) A.length).map fun m => (m.drop A.length).takeWhile (· ≠ 0)

example : norm 92 [7] (bs "c:/a//./b/../d/") = some (bs "c:\\a\\d\\") := by decide +kernel
example : norm 47 [7] (bs "..\\..\\x\\..\\y") = some (bs "../../y") := by decide +kernel
example : norm 92 [] (bs "\\\\srv\\share\\a\\..\\..\\b") = some (bs "\\\\srv\\share\\b") := by decide +kernel
example : norm 92 [] (bs "\\a\\..\\..\\.git\\x") = some (bs "\\.git\\x") := by decide +kernel
example : resolve true (names (bs "\\a\\..\\..\\.git\\x")) = [bs ".git", bs "x"] := by decide +kernel
example : PrefixOk az (bs "c:/a//./b/../d/") := by
  have h : root az (bs "c:/a//./b/../d/") = bs "c:" := by decide +kernel
  exact ⟨by decide +kernel, by rw [h]; simp [NoDouble, bs, twoSeps, isSep]⟩
example : rest az (bs "\\\\srv\\share\\a") = bs "\\a" := by decide +kernel

/-- C09 violated: a relative path at the very start of a memory block.  Removing `a/..` reads the byte in
front of the string (core/src/path.cpp: `write[-1]`). -/
theorem C09_reads_before_start : normalise az 92 (bs "a/.." ++ [0]) 0 = none := by decide +kernel

/-- C09 violated: separators repeated inside a UNC prefix leave stale text behind. -/
theorem C09_stale_prefix :
    norm 92 [7] (bs "\\\\server\\\\share\\x") = some (bs "\\\\server\\sharee\\x") := by decide +kernel

/-- C09 violated: a device path loses one of its leading separators. -/
theorem C09_device : norm 92 [7] (bs "\\\\.\\con") = some (bs "\\.\\con") := by decide +kernel

/-- C09 violated: a name that begins with a dot is not counted, so `..` behind it is kept. -/
theorem C09_dot_name : norm 92 [7] (bs ".git/..") = some (bs ".git\\..") := by decide +kernel

/-- C09 violated: and the result is not stable. -/
theorem C09_not_idempotent : ∃ s s1 s2, norm 92 [7] s = some s1 ∧ norm 92 [7] s1 = some s2 ∧ s1 ≠ s2 := by
  exact ⟨bs "a/.foo/../../b", bs "a\\..\\b", bs "b", by decide +kernel, by decide +kernel, by decide +kernel⟩

/-- C09 violated: after `\\?\`, `..` behind a name that begins with a dot is simply dropped. -/
theorem C09_dropped : norm 92 [7] (bs "\\\\?\\.git\\..") = some (bs "\\\\?\\.git\\") := by decide +kernel

/-- C09 violated: separators in a UNC prefix are not converted. -/
theorem C09_prefix_separators : norm 92 [7] (bs "//s/h/x") = some (bs "//s/h\\x") := by decide +kernel

/-- The condition of `C09_idempotent` about the prefix is needed. -/
theorem C09_new_prefix : norm 92 [7] (bs "./c:./x") = some (bs "c:.\\x") ∧ norm 92 [7] (bs "c:.\\x") = some (bs "c:x") := by
  exact ⟨by decide +kernel, by decide +kernel⟩

end Clink.Path
