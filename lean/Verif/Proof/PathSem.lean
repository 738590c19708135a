import Verif.Proof.PathMain

/-! The fold computed by `normalise` resolves the components. -/

namespace Clink.Path

open StrCompare (isSep)
open Spec

theorem pieces_ne (l : List Nat) : pieces l ≠ [] := by
  cases l with
  | nil => simp [pieces]
  | cons c l =>
    rw [pieces]
    split
    · simp
    · split <;> simp

theorem pieces_append_sep {sep : Nat} (hs : isSep sep = true) (x y : List Nat) :
    pieces (x ++ sep :: y) = pieces x ++ pieces y := by
  induction x with
  | nil => simp [pieces, hs]
  | cons c x ih =>
    simp only [List.cons_append, pieces]
    split
    · rw [ih]; rfl
    · rw [ih]
      cases h : pieces x with
      | nil => exact absurd h (pieces_ne x)
      | cons p ps => simp

theorem names_append_sep {sep : Nat} (hs : isSep sep = true) (x y : List Nat) :
    names (x ++ sep :: y) = names x ++ names y := by
  unfold names
  rw [pieces_append_sep hs, List.filter_append]

theorem pieces_noSep {n : List Nat} (h : ∀ c ∈ n, isSep c = false) : pieces n = [n] := by
  induction n with
  | nil => rfl
  | cons c n ih =>
    rw [pieces, ih fun d hd => h d (List.mem_cons_of_mem _ hd)]
    simp [h c (by simp)]

theorem names_noSep {n : List Nat} (h : ∀ c ∈ n, isSep c = false) (hn : n ≠ []) : names n = [n] := by
  simp [names, pieces_noSep h, hn]

theorem names_nil : names [] = [] := rfl

theorem names_afterSeps (r : List Nat) : names (afterSeps r) = names r := by
  induction r with
  | nil => rfl
  | cons c r ih =>
    cases hc : isSep c with
    | true =>
      have : afterSeps (c :: r) = afterSeps r := by simp [afterSeps, hc]
      rw [this, ih]
      have := names_append_sep hc [] r
      simp only [List.nil_append, names_nil] at this
      exact this.symm
    | false => simp [afterSeps, hc]

theorem names_split (r : List Nat) :
    names r = (if nameOf r = [] then [] else [nameOf r]) ++ names ((tailOf r).drop 1) := by
  rw [← names_afterSeps, ← name_tail]
  cases ht : tailOf r with
  | nil =>
    simp only [List.append_nil, List.drop_nil, names_nil]
    split
    · rename_i h; rw [h]; rfl
    · rename_i h; exact names_noSep (fun c hc => nameOf_noSep hc) h
  | cons c l =>
    rw [names_append_sep (tailOf_head ht)]
    simp only [List.drop_succ_cons, List.drop_zero]
    congr 1
    split
    · rename_i h; rw [h]; rfl
    · rename_i h; exact names_noSep (fun c hc => nameOf_noSep hc) h

theorem name_ne_of_tail {r : List Nat} (h : tailOf r ≠ []) : nameOf r ≠ [] := by
  intro hn
  obtain ⟨c, l, hc⟩ := List.exists_cons_of_ne_nil h
  have h1 := name_tail r
  rw [hn, List.nil_append, hc] at h1
  have h2 := afterSeps_noSep h1.symm
  rw [tailOf_head hc] at h2
  simp at h2

/-- Components written out, newest first, each with a separator. -/
def render (sep : Nat) : List (List Nat) → List Nat
  | [] => []
  | n :: st => render sep st ++ (n ++ [sep])

/-- Text and components agree, every component being closed by a separator. -/
def Closed (sep : Nat) (unc : Bool) (st : List (List Nat)) (out : List Nat) : Prop :=
  (unc = false ∧ out = render sep st) ∨ (unc = true ∧ (out = sep :: render sep st ∨ (out = [] ∧ st = [])))

/-- A component's name. -/
def Name (n : List Nat) : Prop := n ≠ [] ∧ ∀ c ∈ n, isSep c = false

theorem render_last {sep : Nat} {st : List (List Nat)} {out : List Nat} {unc : Bool}
    (h : Closed sep unc st out) (hne : out ≠ []) : ∃ o, out = o ++ [sep] := by
  have hr : ∀ st, render sep st ≠ [] → ∃ o, render sep st = o ++ [sep] := by
    intro st hs
    cases st with
    | nil => simp [render] at hs
    | cons n st => exact ⟨render sep st ++ n, by simp [render]⟩
  rcases h with ⟨-, rfl⟩ | ⟨-, rfl | ⟨rfl, -⟩⟩
  · exact hr _ hne
  · by_cases h : render sep st = []
    · exact ⟨[], by simp [h]⟩
    · obtain ⟨o, ho⟩ := hr _ h
      exact ⟨sep :: o, by simp [ho]⟩
  · simp at hne

theorem dropWhile_ns {n : List Nat} (hn : ∀ c ∈ n, isSep c = false) (x : List Nat) :
    (n ++ x).dropWhile (fun c => !isSep c) = x.dropWhile (fun c => !isSep c) := by
  induction n with
  | nil => rfl
  | cons c n ih =>
    simp [hn c (by simp), ih fun d hd => hn d (List.mem_cons_of_mem _ hd)]

theorem pop_close {sep : Nat} (hs : isSep sep = true) {o n : List Nat} (hn : ∀ c ∈ n, isSep c = false)
    (ho : o = [] ∨ ∃ o', o = o' ++ [sep]) : pop (o ++ (n ++ [sep])) = o := by
  unfold pop
  rw [← List.append_assoc, List.dropLast_concat, List.reverse_append, dropWhile_ns (by simpa using hn)]
  rcases ho with rfl | ⟨o', rfl⟩
  · rfl
  · simp [hs]

theorem pop_closed {sep : Nat} (hs : isSep sep = true) {unc : Bool} {n : List Nat} {st : List (List Nat)} {out : List Nat}
    (hn : Name n) (h : Closed sep unc (n :: st) out) : Closed sep unc st (pop out) := by
  rcases h with ⟨hu, rfl⟩ | ⟨hu, rfl | ⟨-, h⟩⟩
  · left
    refine ⟨hu, ?_⟩
    rw [render]
    apply pop_close hs hn.2
    by_cases h : render sep st = []
    · exact .inl h
    · exact .inr (render_last (unc := false) (.inl ⟨rfl, rfl⟩) h)
  · right
    refine ⟨hu, .inl ?_⟩
    rw [render, ← List.cons_append]
    apply pop_close hs hn.2
    right
    exact render_last (unc := true) (st := st) (.inr ⟨rfl, .inl rfl⟩) (by simp)
  · simp at h

theorem pop_empty {sep : Nat} {unc : Bool} {out : List Nat} (h : Closed sep unc [] out) : Closed sep unc [] (pop out) := by
  rcases h with ⟨hu, rfl⟩ | ⟨hu, rfl | ⟨rfl, -⟩⟩
  · left; exact ⟨hu, by simp [render, pop]⟩
  · right; exact ⟨hu, .inr ⟨by simp [render, pop], rfl⟩⟩
  · right; exact ⟨hu, .inr ⟨by simp [pop], rfl⟩⟩

theorem put_closed {sep : Nat} {unc : Bool} {n : List Nat} {st : List (List Nat)} {out : List Nat}
    (h : Closed sep unc st out) : Closed sep unc (n :: st) (put sep unc out n true) := by
  unfold put
  rcases h with ⟨rfl, rfl⟩ | ⟨rfl, rfl | ⟨rfl, rfl⟩⟩
  · left; exact ⟨rfl, by simp [render]⟩
  · right; exact ⟨rfl, .inl (by simp [render])⟩
  · right; exact ⟨rfl, .inl (by simp [render])⟩

theorem put_nothing {sep : Nat} {unc : Bool} {st : List (List Nat)} {out : List Nat}
    (h : Closed sep unc st out) : Closed sep unc st (put sep unc out [] false) := by
  unfold put
  rcases h with ⟨rfl, rfl⟩ | ⟨rfl, rfl | ⟨rfl, rfl⟩⟩
  · left; exact ⟨rfl, by simp⟩
  · right; exact ⟨rfl, .inl (by simp)⟩
  · right; exact ⟨rfl, .inl (by simp [render])⟩

/-- The last component is not closed. -/
def Open (sep : Nat) (unc : Bool) (st : List (List Nat)) (out : List Nat) : Prop :=
  ∃ n st' o, st = n :: st' ∧ Closed sep unc st' o ∧ out = put sep unc o n false

/-- `piece_count` agrees with the components.  `k` bounds how far a large count has moved. -/
def CountOk (eat big : Bool) (k : Nat) (st : List (List Nat)) (count : Nat) : Prop :=
  if big then (∀ n ∈ st, n ≠ [46, 46]) ∧ 2147483647 - k ≤ count ∧ count ≤ 2147483647 + k
  else ∃ ps j, st = ps ++ List.replicate j [46, 46] ∧ (∀ n ∈ ps, n ≠ [46, 46]) ∧ count = ps.length
    ∧ (eat = true → j = 0) ∧ count ≤ k

theorem uInc_small {n : Nat} (h : n < 4294967295) : uInc n = n + 1 := by unfold uInc; omega
theorem uDec_small {n : Nat} (h : n ≠ 0) (h2 : n < 4294967296) : uDec n = n - 1 := by unfold uDec; omega

theorem Name.nameOf {r : List Nat} (h : nameOf r ≠ []) : Name (nameOf r) := ⟨h, fun _ hc => nameOf_noSep hc⟩

/-- One element that is followed by a separator, or a last one. -/
theorem step_sem {sep : Nat} (hs : isSep sep = true) {eat big unc : Bool} {st : List (List Nat)} {out : List Nat}
    {count k : Nat} {n : List Nat} (hn : Name n) (hst : ∀ m ∈ st, Name m) (hk : k < 1073741824)
    (hc : Closed sep unc st out) (hcount : CountOk eat big k st count)
    (hdot : big = false → dotName n = false) (more : Bool) :
    let s' := stepL sep true eat unc (out, count) (n, more)
    let st' := resolve1 (big || eat) st n
    (∀ m ∈ st', Name m) ∧ CountOk eat big (k + 1) st' s'.2 ∧
    (more = true → Closed sep unc st' s'.1) ∧
    (more = false → Closed sep unc st' s'.1 ∨ Open sep unc st' s'.1) ∧
    (more = false → n ≠ [46] → n ≠ [46, 46] → Open sep unc st' s'.1 ∧ ∃ st0, st' = n :: st0) := by
  intro s' st'
  by_cases h1 : n = [46]
  · subst h1
    have e1 : s' = (out, count) := by simp [s', stepL]
    have e2 : st' = st := by simp [st', resolve1]
    rw [e1, e2]
    refine ⟨hst, ?_, fun _ => hc, fun _ => .inl hc, fun _ h => absurd rfl h⟩
    cases big with
    | true => simp only [CountOk, if_true] at hcount ⊢; exact ⟨hcount.1, by omega, by omega⟩
    | false =>
      simp only [CountOk, Bool.false_eq_true, if_false] at hcount ⊢
      obtain ⟨ps, j, a, b, c, d, e⟩ := hcount
      exact ⟨ps, j, a, b, c, d, by omega⟩
  by_cases h2 : n = [46, 46]
  · subst h2
    cases hb : big with
    | true =>
      subst hb
      simp only [CountOk, if_true] at hcount
      have hc0 : count ≠ 0 := by omega
      have e1 : s' = (pop out, uDec count) := by simp [s', stepL, hc0]
      rw [e1]
      cases hst0 : st with
      | nil =>
        have e2 : st' = [] := by simp [st', resolve1, hst0]
        rw [e2]
        rw [hst0] at hc
        have := pop_empty hc
        refine ⟨by simp, ?_, fun _ => this, fun _ => .inl this, fun _ _ h => absurd rfl h⟩
        simp only [CountOk, if_true]
        rw [uDec_small hc0 (by omega)]
        exact ⟨by simp, by omega, by omega⟩
      | cons t st0 =>
        have ht : t ≠ [46, 46] := hcount.1 t (by rw [hst0]; simp)
        have e2 : st' = st0 := by simp [st', resolve1, hst0, ht]
        rw [e2]
        rw [hst0] at hc hst hcount
        have := pop_closed hs (hst t (by simp)) hc
        refine ⟨fun m hm => hst m (List.mem_cons_of_mem _ hm), ?_, fun _ => this, fun _ => .inl this, fun _ _ h => absurd rfl h⟩
        simp only [CountOk, if_true]
        rw [uDec_small hc0 (by omega)]
        exact ⟨fun m hm => hcount.1 m (List.mem_cons_of_mem _ hm), by omega, by omega⟩
    | false =>
      subst hb
      simp only [CountOk, Bool.false_eq_true, if_false] at hcount
      obtain ⟨ps, j, hps, hne, hcnt, hj, hle⟩ := hcount
      cases ps with
      | cons t ps =>
        have hc0 : count ≠ 0 := by rw [hcnt]; simp
        have e1 : s' = (pop out, uDec count) := by simp [s', stepL, hc0]
        have ht : t ≠ [46, 46] := hne t (by simp)
        have e2 : st' = ps ++ List.replicate j [46, 46] := by simp [st', resolve1, hps, ht]
        rw [e1, e2]
        rw [hps, List.cons_append] at hc hst
        have := pop_closed hs (hst t (by simp)) hc
        refine ⟨fun m hm => hst m (List.mem_cons_of_mem _ hm), ?_, fun _ => this, fun _ => .inl this, fun _ _ h => absurd rfl h⟩
        simp only [CountOk, Bool.false_eq_true, if_false]
        rw [uDec_small hc0 (by omega)]
        refine ⟨ps, j, rfl, fun m hm => hne m (List.mem_cons_of_mem _ hm), ?_, hj, by omega⟩
        rw [hcnt]; simp
      | nil =>
        have hc0 : count = 0 := by rw [hcnt]; rfl
        simp only [List.nil_append] at hps
        cases he : eat with
        | true =>
          have hj0 := hj he
          subst hj0
          subst he
          have e1 : s' = (out, count) := by simp [s', stepL, hc0]
          have e2 : st' = [] := by simp [st', resolve1, hps]
          rw [e1, e2]
          rw [hps] at hc
          simp only [List.replicate_zero] at hc
          refine ⟨by simp, ?_, fun _ => hc, fun _ => .inl hc, fun _ _ h => absurd rfl h⟩
          simp only [CountOk, Bool.false_eq_true, if_false]
          exact ⟨[], 0, rfl, by simp, by simpa using hc0, fun _ => rfl, by omega⟩
        | false =>
          subst he
          have e1 : s' = (put sep unc out [46, 46] more, count) := by simp [s', stepL, hc0]
          have e2 : st' = [46, 46] :: st := by
            simp only [st', resolve1, hps]
            cases j <;> simp [List.replicate_succ]
          rw [e1, e2]
          refine ⟨?_, ?_, ?_, ?_, fun _ _ h => absurd rfl h⟩
          · intro m hm
            rcases List.mem_cons.1 hm with rfl | hm
            · exact hn
            · exact hst m hm
          · simp only [CountOk, Bool.false_eq_true, if_false]
            exact ⟨[], j + 1, by simp [hps, List.replicate_succ], by simp, by simpa using hc0, by simp, by omega⟩
          · rintro rfl; exact put_closed hc
          · rintro rfl; exact .inr ⟨_, _, _, rfl, hc, rfl⟩
  · have e2 : st' = n :: st := by simp [st', resolve1, h1, h2]
    have e1 : s' = (put sep unc out n more, if n.head? = some 46 then count else uInc count) := by
      simp [s', stepL, h1, h2]
    rw [e1, e2]
    refine ⟨?_, ?_, ?_, ?_, ?_⟩
    · intro m hm
      rcases List.mem_cons.1 hm with rfl | hm
      · exact hn
      · exact hst m hm
    · cases hb : big with
      | true =>
        subst hb
        simp only [CountOk, if_true] at hcount ⊢
        refine ⟨?_, ?_⟩
        · intro m hm
          rcases List.mem_cons.1 hm with rfl | hm
          · exact h2
          · exact hcount.1 m hm
        · split
          · exact ⟨by omega, by omega⟩
          · rw [uInc_small (by omega)]; exact ⟨by omega, by omega⟩
      | false =>
        have hd := hdot hb
        subst hb
        have hh : n.head? ≠ some 46 := by
          intro h
          simp [dotName, h, h1, h2] at hd
        simp only [CountOk, Bool.false_eq_true, if_false] at hcount ⊢
        rw [if_neg hh]
        obtain ⟨ps, j, hps, hne, hcnt, hj, hle⟩ := hcount
        refine ⟨n :: ps, j, by simp [hps], ?_, ?_, hj, ?_⟩
        · intro m hm
          rcases List.mem_cons.1 hm with rfl | hm
          · exact h2
          · exact hne m hm
        · rw [uInc_small (by omega), hcnt]; simp
        · rw [uInc_small (by omega)]; omega
    · rintro rfl; exact put_closed hc
    · rintro rfl; exact .inr ⟨_, _, _, rfl, hc, rfl⟩
    · rintro rfl _ _; exact ⟨⟨_, _, _, rfl, hc, rfl⟩, _, rfl⟩

theorem elems_cons {r : List Nat} (h : r ≠ []) :
    elems r = (nameOf r, !(tailOf r).isEmpty) :: elems ((tailOf r).drop 1) := by
  cases r with
  | nil => simp at h
  | cons c l => rw [elems]

theorem getLast_tail {r l : List Nat} {c : Nat} (h : tailOf r = c :: l) :
    r.getLast? = if l = [] then some c else l.getLast? := by
  have h1 : tailOf r <:+ r := (fromSep_suffix _).trans (afterSeps_suffix r)
  rw [h] at h1
  obtain ⟨a, rfl⟩ := h1
  rw [List.getLast?_append]
  cases l with
  | nil => simp
  | cons d l => simp [List.getLast?_cons]

theorem getLast_name {r : List Nat} (h : tailOf r = []) (hn : nameOf r ≠ []) : ∃ c, r.getLast? = some c ∧ isSep c = false := by
  have h1 := name_tail r
  rw [h, List.append_nil] at h1
  obtain ⟨a, ha⟩ := afterSeps_suffix r
  rw [← h1] at ha
  obtain ⟨c, hc⟩ : ∃ c, (nameOf r).getLast? = some c := by
    cases hl : (nameOf r).getLast? with
    | none => exact absurd (List.getLast?_eq_none_iff.1 hl) hn
    | some c => exact ⟨c, rfl⟩
  refine ⟨c, ?_, nameOf_noSep (List.mem_of_getLast? hc)⟩
  rw [← ha, List.getLast?_append, hc]; rfl

/-- The whole fold. -/
theorem fold_sem {sep : Nat} (hs : isSep sep = true) {eat big unc : Bool} (r : List Nat)
    (hdot : big = false → ∀ n ∈ names r, dotName n = false)
    {st : List (List Nat)} {out : List Nat} {count k : Nat} (hst : ∀ m ∈ st, Name m)
    (hk : k + r.length < 1073741824) (hc : Closed sep unc st out) (hcount : CountOk eat big k st count) :
    let out' := ((elems r).foldl (stepL sep true eat unc) (out, count)).1
    let st' := (names r).foldl (resolve1 (big || eat)) st
    (∀ m ∈ st', Name m) ∧ (Closed sep unc st' out' ∨ Open sep unc st' out')
    ∧ (∀ c, r.getLast? = some c → isSep c = true → Closed sep unc st' out')
    ∧ (∀ c n, r.getLast? = some c → isSep c = false → (names r).getLast? = some n → n ≠ [46] → n ≠ [46, 46] →
        Open sep unc st' out' ∧ ∃ st0, st' = n :: st0) := by
  intro out' st'
  by_cases hne : r = []
  · subst hne
    exact ⟨hst, .inl (by simpa [out', st', elems, names_nil] using hc), by simp, by simp⟩
  have hel := elems_cons hne
  have hnm := names_split r
  have htl := tailOf_le r
  have hpos := List.length_pos_iff.2 hne
  have hlt : ((tailOf r).drop 1).length < r.length := by simp; omega
  cases ht : tailOf r with
  | nil =>
    rw [ht] at hel hnm
    simp only [List.drop_nil, elems, List.isEmpty_nil, Bool.not_true, names_nil, List.append_nil] at hel hnm
    by_cases hn : nameOf r = []
    · rw [if_pos hn] at hnm
      have e1 : out' = put sep unc out [] false := by
        simp [out', hel, hn, stepL]
      have e2 : st' = st := by simp [st', hnm]
      rw [e1, e2]
      have := put_nothing hc
      exact ⟨hst, .inl this, fun _ _ _ => this, by simp [hnm]⟩
    · rw [if_neg hn] at hnm
      obtain ⟨s1, s2, s3, s4, s5⟩ := step_sem hs (Name.nameOf hn) hst (by omega) hc hcount
        (fun hb => hdot hb _ (by rw [hnm]; simp)) (more := false)
      have e1 : out' = (stepL sep true eat unc (out, count) (nameOf r, false)).1 := by simp [out', hel]
      have e2 : st' = resolve1 (big || eat) st (nameOf r) := by simp [st', hnm]
      rw [e1, e2]
      refine ⟨s1, s4 rfl, ?_, ?_⟩
      · intro c hc1 hc2
        obtain ⟨d, hd1, hd2⟩ := getLast_name ht hn
        rw [hd1] at hc1
        simp only [Option.some.injEq] at hc1
        rw [hc1, hc2] at hd2
        simp at hd2
      · intro c n _ _ hl a b
        rw [hnm] at hl
        simp only [List.getLast?_singleton, Option.some.injEq] at hl
        subst hl
        exact s5 rfl a b
  | cons d l =>
    have htne : tailOf r ≠ [] := by rw [ht]; simp
    have hn := name_ne_of_tail htne
    rw [ht] at hel hnm hlt
    simp only [List.drop_succ_cons, List.drop_zero, List.isEmpty_cons, Bool.not_false] at hel hnm hlt
    rw [if_neg hn] at hnm
    obtain ⟨s1, s2, s3, s4, s5⟩ := step_sem hs (Name.nameOf hn) hst (by omega) hc hcount
        (fun hb => hdot hb _ (by rw [hnm]; simp)) (more := true)
    have hdec : l.length < r.length := hlt
    have ih := fold_sem hs l (fun hb n hn' => hdot hb n (by rw [hnm]; simp [hn'])) s1 (by omega) (s3 rfl) s2
    have e1 : out' = ((elems l).foldl (stepL sep true eat unc) (stepL sep true eat unc (out, count) (nameOf r, true))).1 := by
      simp [out', hel]
    have e2 : st' = (names l).foldl (resolve1 (big || eat)) (resolve1 (big || eat) st (nameOf r)) := by simp [st', hnm]
    rw [e1, e2]
    rw [← Prod.eta (stepL _ _ _ _ _ _)]
    obtain ⟨i1, i2, i3, i4⟩ := ih
    have hgl := getLast_tail ht
    refine ⟨i1, i2, ?_, ?_⟩
    · intro c hc1 hc2
      by_cases hl : l = []
      · subst hl
        simpa [elems, names_nil] using s3 rfl
      · rw [hgl, if_neg hl] at hc1
        exact i3 c hc1 hc2
    · intro c n hc1 hc2 hl a b
      by_cases hl0 : l = []
      · rw [hgl, if_pos hl0] at hc1
        simp only [Option.some.injEq] at hc1
        rw [← hc1, tailOf_head ht] at hc2
        simp at hc2
      · rw [hgl, if_neg hl0] at hc1
        refine i4 c n hc1 hc2 ?_ a b
        rw [hnm] at hl
        cases hq : names l with
        | nil =>
          -- `l` ends in a name
          exfalso
          have : ∀ l : List Nat, names l = [] → ∀ c ∈ l, isSep c = true := by
            intro l
            induction l with
            | nil => simp
            | cons x l ih =>
              intro h c hc
              cases hx : isSep x with
              | true =>
                have := names_append_sep hx [] l
                simp only [List.nil_append, names_nil] at this
                rw [this] at h
                rcases List.mem_cons.1 hc with rfl | hc
                · exact hx
                · exact ih h c hc
              | false =>
                have h0 := names_split (x :: l)
                have : nameOf (x :: l) ≠ [] := by simp [nameOf, afterSeps, hx]
                rw [if_neg this, h] at h0
                simp at h0
          rw [this l hq c (List.mem_of_getLast? hc1)] at hc2
          simp at hc2
        | cons y ys => rw [hq] at hl; simpa [List.getLast?_cons] using hl
termination_by r.length
decreasing_by exact hdec

end Clink.Path
