import Verif.Spec.StrCompare
namespace Clink

theorem Steps.append {it : Iter} {l m n cs ds : List Nat} (h1 : Steps it l cs m) (h2 : Steps it m ds n) :
    Steps it l (cs ++ ds) n := by
  induction h1 with
  | nil => exact h2
  | cons h hc _ ih => exact .cons h hc (ih h2)

theorem Steps.suffix {it : Iter} {l cs suf : List Nat} (h : Steps it l cs suf) : suf <:+ l := by
  induction h with
  | nil => exact List.suffix_refl _
  | @cons l0 _ _ _ _ h _ _ ih =>
    have := it.suffix l0
    rw [h] at this
    exact ih.trans this

theorem Text.unique {it : Iter} {l cs suf cs' suf' : List Nat} (h : Text it l cs suf) (h' : Text it l cs' suf') :
    cs = cs' ∧ suf = suf' := by
  obtain ⟨h, hp⟩ := h
  obtain ⟨h', hp'⟩ := h'
  induction h generalizing cs' suf' with
  | nil l =>
    cases h' with
    | nil => exact ⟨rfl, rfl⟩
    | cons g hc _ => unfold Iter.peek at hp; rw [g] at hp; exact absurd hp hc
  | cons g hc _ ih =>
    cases h' with
    | nil => unfold Iter.peek at hp'; rw [g] at hp'; exact absurd hp' hc
    | cons g' hc' hs' =>
      rw [g] at g'; cases g'
      obtain ⟨a, b⟩ := ih hp hs' hp'
      exact ⟨by rw [a], b⟩

/-- Every string has a text. -/
theorem Text.exists (it : Iter) (l : List Nat) : ∃ cs suf, Text it l cs suf := by
  generalize hn : l.length = n
  induction n using Nat.strongRecOn generalizing l with
  | ind n ih =>
    by_cases hp : it.peek l = 0
    · exact ⟨[], l, .nil _, hp⟩
    · obtain ⟨cs, suf, h1, h2⟩ := ih (it.adv l).length (by rw [← hn]; exact it.adv_lt hp) (it.adv l) rfl
      exact ⟨it.peek l :: cs, suf, .cons rfl hp h1, h2⟩

theorem Text.cons_inv {it : Iter} {l cs suf : List Nat} (h : Text it l cs suf) (hp : it.peek l ≠ 0) :
    ∃ cs', cs = it.peek l :: cs' ∧ Text it (it.adv l) cs' suf := by
  obtain ⟨h, h0⟩ := h
  cases h with
  | nil => exact absurd h0 hp
  | cons g hc hs =>
    unfold Iter.peek Iter.adv
    rw [g]
    exact ⟨_, rfl, hs, h0⟩

theorem Text.nil_inv {it : Iter} {l cs suf : List Nat} (h : Text it l cs suf) (hp : it.peek l = 0) :
    cs = [] ∧ suf = l := by
  exact (Text.unique (cs' := []) (suf' := l) h ⟨.nil _, hp⟩)

end Clink

namespace Clink.StrCompare
open Clink

/-! ### The accent table -/

theorem table_sorted_adj : ∀ i < accentTable.size - 1,
    (accentTable.getD i (0, 0)).1 < (accentTable.getD (i + 1) (0, 0)).1 := by decide +kernel

theorem table_sorted {i j : Nat} (h : i < j) (hj : j < accentTable.size) :
    (accentTable.getD i (0, 0)).1 < (accentTable.getD j (0, 0)).1 := by
  induction j with
  | zero => omega
  | succ j ih =>
    have := table_sorted_adj j (by omega)
    by_cases hij : i = j
    · subst hij; exact this
    · exact Nat.lt_trans (ih (by omega) (by omega)) this

theorem bsearch_hit (c lo hi i : Nat) (hs : hi ≤ accentTable.size) (h1 : lo ≤ i) (h2 : i < hi)
    (hc : (accentTable.getD i (0, 0)).1 = c) : bsearch c lo hi = (accentTable.getD i (0, 0)).2 := by
  fun_induction bsearch c lo hi with
  | case1 lo hi hlt mid e he =>
    by_cases hi' : i = mid
    · rw [hi']
    · exfalso
      rcases Nat.lt_or_gt_of_ne hi' with hh | hh
      · have := table_sorted hh (by omega)
        rw [hc] at this
        change c < e.1 at this
        omega
      · have := table_sorted hh (by omega)
        rw [hc] at this
        change e.1 < c at this
        omega
  | case2 lo hi hlt mid e hne hl ih =>
    by_cases hm : i < mid
    · exact ih (by omega) h1 hm
    · exfalso
      by_cases hi' : i = mid
      · exact hne (by rw [← hc, hi'])
      · have := table_sorted (show mid < i by omega) (by omega)
        rw [hc] at this
        change e.1 < c at this
        omega
  | case3 lo hi hlt mid e hne hl ih =>
    by_cases hm : mid < i
    · exact ih hs (by omega) h2
    · exfalso
      by_cases hi' : i = mid
      · exact hne (by rw [← hc, hi'])
      · have := table_sorted (show i < mid by omega) (by omega)
        rw [hc] at this
        change c < e.1 at this
        omega
  | case4 lo hi hlt => omega

theorem bsearch_miss (c lo hi : Nat) (hm : ∀ i, lo ≤ i → i < hi → (accentTable.getD i (0, 0)).1 ≠ c) :
    bsearch c lo hi = c := by
  fun_induction bsearch c lo hi with
  | case1 lo hi hlt mid e he => exact absurd he.symm (hm mid (by omega) (by omega))
  | case2 lo hi hlt mid e hne hl ih => exact ih (fun i a b => hm i a (by omega))
  | case3 lo hi hlt mid e hne hl ih => exact ih (fun i a b => hm i (by omega) b)
  | case4 => rfl

theorem getD_toList (i : Nat) (h : i < accentTable.size) :
    accentTable.getD i (0, 0) = accentTable.toList[i]'(by simpa using h) := by
  simp [Array.getD, h]

/-- The binary search finds exactly what a linear search finds. -/
theorem normalizeAccent_eq (c : Nat) : normalizeAccent c = unaccent c := by
  unfold normalizeAccent unaccent
  split
  · rename_i e he
    have h1 := List.mem_of_find?_eq_some he
    have h2 := List.find?_some he
    obtain ⟨i, hi, hie⟩ := List.getElem_of_mem h1
    have hi' : i < accentTable.size := by simpa using hi
    have hg := getD_toList i hi'
    rw [bsearch_hit c 0 accentTable.size i (Nat.le_refl _) (Nat.zero_le _) hi', hg, hie]
    rw [hg, hie]; simpa using h2
  · rename_i hn
    rw [List.find?_eq_none] at hn
    refine bsearch_miss _ _ _ (fun i _ hi => ?_)
    rw [getD_toList i hi]
    have := hn _ (List.getElem_mem (by simpa using hi))
    simpa using this

theorem table_vals : ∀ e ∈ accentTable.toList, e.2 ≠ 47 ∧ e.2 ≠ 92 ∧ e.1 ≠ 47 ∧ e.1 ≠ 92 ∧ e.2 ≠ 0 ∧
    e.2 < 128 ∧ 128 ≤ e.1 := by decide +kernel

theorem unaccent_cases (c : Nat) : unaccent c = c ∨ ∃ e ∈ accentTable.toList, e.1 = c ∧ unaccent c = e.2 := by
  unfold unaccent
  split
  · rename_i e he
    exact .inr ⟨e, List.mem_of_find?_eq_some he, by simpa using List.find?_some he, rfl⟩
  · exact .inl rfl

theorem unaccent_slash (c : Nat) : unaccent c = 47 ↔ c = 47 := by
  constructor
  · intro h
    rcases unaccent_cases c with e | ⟨e, he, h1, h2⟩
    · rw [← e]; exact h
    · have := (table_vals e he).1; omega
  · intro h
    rcases unaccent_cases c with e | ⟨e, he, h1, h2⟩
    · rw [e]; exact h
    · have := (table_vals e he).2.2.1; omega

theorem unaccent_idem (c : Nat) : unaccent (unaccent c) = unaccent c := by
  rcases unaccent_cases c with e | ⟨e, he, h1, h2⟩
  · rw [e, e]
  · rw [h2]
    rcases unaccent_cases e.2 with e' | ⟨f, hf, h3, h4⟩
    · exact e'
    · have := (table_vals e he).2.2.2.2.2.1
      have := (table_vals f hf).2.2.2.2.2.2
      omega

/-! ### Folding and classes -/

theorem canon_eq (lower : Nat → Nat) (m : Mode) (c : Nat) :
    canon lower m c = if m.fuzzy then unaccent (fold lower m c) else fold lower m c := by
  have : fold lower m c = (let c := if m.mode ≥ 1 ∧ c ≤ 0xffff then lower c else c
    let c := if m.mode ≥ 2 ∧ c = 45 then 95 else c
    if m.exactSlash = false ∧ c = 92 then 47 else c) := by
    unfold fold
    have e1 : (if m.mode > 0 then (if c > 0xffff then c else lower c) else c) =
        if m.mode ≥ 1 ∧ c ≤ 0xffff then lower c else c := by
      by_cases h1 : m.mode > 0 <;> by_cases h2 : c > 0xffff
      · rw [if_pos h1, if_pos h2, if_neg (by omega)]
      · rw [if_pos h1, if_neg h2, if_pos (by omega)]
      · rw [if_neg h1, if_neg (by omega)]
      · rw [if_neg h1, if_neg (by omega)]
    simp only [e1]
    generalize (if m.mode ≥ 1 ∧ c ≤ 0xffff then lower c else c) = x
    have e2 : (if m.mode > 1 then (if x = 45 then 95 else x) else x) =
        if m.mode ≥ 2 ∧ x = 45 then 95 else x := by
      by_cases h1 : m.mode > 1 <;> by_cases h2 : x = 45
      · rw [if_pos h1, if_pos h2, if_pos (by omega)]
      · rw [if_pos h1, if_neg h2, if_neg (by omega)]
      · rw [if_neg h1, if_neg (by omega)]
      · rw [if_neg h1, if_neg (by omega)]
    simp only [e2]
    cases m.exactSlash <;> simp
  rw [this]; rfl

theorem same_iff (lower : Nat → Nat) (m : Mode) (c d : Nat) :
    same m (fold lower m c) (fold lower m d) = true ↔ canon lower m c = canon lower m d := by
  rw [canon_eq, canon_eq]
  unfold same
  simp only [normalizeAccent_eq]
  by_cases h : fold lower m c = fold lower m d
  · rw [h]; simp
  · rw [if_neg h]
    cases m.fuzzy
    · simpa using h
    · simp

theorem slash_iff (lower : Nat → Nat) (m : Mode) (c d : Nat) :
    (if fold lower m c = fold lower m d then fold lower m c else normalizeAccent (fold lower m c)) = 47 ↔
      (if m.fuzzy = true ∨ fold lower m c = fold lower m d then canon lower m c = 47 else unaccent (fold lower m c) = 47) := by
  rw [canon_eq, normalizeAccent_eq]
  by_cases h : fold lower m c = fold lower m d
  · rw [if_pos h, if_pos (.inr h)]
    cases m.fuzzy
    · simp
    · simp [unaccent_slash]
  · rw [if_neg h]
    cases hf : m.fuzzy
    · rw [if_neg (by simp [h])]
    · simp

theorem slash_same (lower : Nat → Nat) (m : Mode) (c d : Nat)
    (hs : same m (fold lower m c) (fold lower m d) = true) :
    (if fold lower m c = fold lower m d then fold lower m c else normalizeAccent (fold lower m c)) = 47 ↔
      canon lower m c = 47 := by
  rw [slash_iff]
  unfold same at hs
  by_cases h : fold lower m c = fold lower m d
  · rw [if_pos (.inr h)]
  · rw [if_neg h] at hs
    cases hf : m.fuzzy
    · rw [hf] at hs; simp at hs
    · simp

/-! ### Skipping separators -/

theorem skipSep_text (it : Iter) (l cs suf : List Nat) (h : Text it l cs suf) :
    Steps it l (cs.takeWhile isSep) (skipSep it l) ∧ Text it (skipSep it l) (cs.dropWhile isSep) suf := by
  fun_induction skipSep it l generalizing cs with
  | case1 l hsep _ ih =>
    have hp : it.peek l ≠ 0 := by intro e; rw [e] at hsep; simp [isSep] at hsep
    obtain ⟨cs', rfl, h'⟩ := h.cons_inv hp
    obtain ⟨a, b⟩ := ih cs' h'
    rw [List.takeWhile_cons_of_pos hsep, List.dropWhile_cons_of_pos hsep]
    exact ⟨.cons rfl hp a, b⟩
  | case2 l hsep =>
    by_cases hp : it.peek l = 0
    · obtain ⟨rfl, rfl⟩ := h.nil_inv hp
      exact ⟨.nil _, .nil _, hp⟩
    · obtain ⟨cs', rfl, h'⟩ := h.cons_inv hp
      rw [List.takeWhile_cons_of_neg hsep, List.dropWhile_cons_of_neg hsep]
      exact ⟨.nil _, .cons rfl hp h'.1, h'.2⟩

theorem key_nil (lower : Nat → Nat) (m : Mode) : key lower m [] = [] := by rw [key]
theorem key_cons (lower : Nat → Nat) (m : Mode) (c : Nat) (cs : List Nat) :
    key lower m (c :: cs) =
      canon lower m c :: (if canon lower m c = 47 then key lower m (cs.dropWhile isSep) else key lower m cs) := by
  rw [key]

theorem dropWhile_prefix_nosep (s p : List Nat) (hp : p <+: s.dropWhile isSep) :
    (s.takeWhile isSep ++ p).dropWhile isSep = p := by
  have h1 : ∀ x ∈ s.takeWhile isSep, isSep x = true := by
    intro x hx; exact List.all_eq_true.1 List.all_takeWhile x hx
  rw [List.dropWhile_append_of_pos h1]
  cases p with
  | nil => rfl
  | cons a p =>
    obtain ⟨t, ht⟩ := hp
    have : isSep a = false := by
      have h2 := List.head?_dropWhile_not isSep s
      rw [← ht] at h2
      simpa using h2
    rw [List.dropWhile_cons_of_neg (by simp [this])]

theorem loop_spec (lower : Nat → Nat) (it : Iter) (m : Mode) (l r cs ds sl sr : List Nat)
    (hl : Text it l cs sl) (hr : Text it r ds sr) :
    ∃ pl ql pr qr, cs = pl ++ ql ∧ ds = pr ++ qr ∧
      Steps it l pl (loop lower it m l r).1 ∧ Text it (loop lower it m l r).1 ql sl ∧
      Steps it r pr (loop lower it m l r).2 ∧ Text it (loop lower it m l r).2 qr sr ∧
      key lower m pl = lcp (key lower m cs) (key lower m ds) ∧
      key lower m pr = lcp (key lower m cs) (key lower m ds) ∧
      key lower m cs = key lower m pl ++ key lower m ql ∧
      key lower m ds = key lower m pr ++ key lower m qr := by
  fun_induction loop lower it m l r generalizing cs ds with
  | case1 l r h c d hs c' h1 h2 h3 ih =>
    obtain ⟨cs', rfl, hl'⟩ := hl.cons_inv h.1
    obtain ⟨ds', rfl, hr'⟩ := hr.cons_inv h.2
    obtain ⟨a1, a2⟩ := skipSep_text it _ _ _ hl'
    obtain ⟨b1, b2⟩ := skipSep_text it _ _ _ hr'
    obtain ⟨pl, ql, pr, qr, e1, e2, s1, t1, s2, t2, k1, k2, k3, k4⟩ := ih _ _ a2 b2
    have hcd := (same_iff lower m _ _).1 hs
    have hc47 := (slash_same lower m _ _ hs).1 h3
    have hd47 := hcd ▸ hc47
    have dl := dropWhile_prefix_nosep cs' pl ⟨ql, e1.symm⟩
    have dr := dropWhile_prefix_nosep ds' pr ⟨qr, e2.symm⟩
    refine ⟨it.peek l :: (cs'.takeWhile isSep ++ pl), ql, it.peek r :: (ds'.takeWhile isSep ++ pr), qr,
      ?_, ?_, .cons rfl h.1 (a1.append s1), t1, .cons rfl h.2 (b1.append s2), t2, ?_, ?_, ?_, ?_⟩
    · rw [List.cons_append, List.append_assoc, ← e1, List.takeWhile_append_dropWhile]
    · rw [List.cons_append, List.append_assoc, ← e2, List.takeWhile_append_dropWhile]
    · rw [key_cons, key_cons, key_cons, if_pos hc47, if_pos hc47, if_pos hd47, dl, lcp, if_pos hcd, k1]
    · rw [key_cons, key_cons, key_cons, if_pos hc47, if_pos hd47, if_pos hd47, dr, lcp, if_pos hcd, k2, hcd]
    · rw [key_cons, key_cons, if_pos hc47, if_pos hc47, dl, k3]; rfl
    · rw [key_cons, key_cons, if_pos hd47, if_pos hd47, dr, k4]; rfl
  | case2 l r h c d hs c' h1 h2 h3 ih =>
    obtain ⟨cs', rfl, hl'⟩ := hl.cons_inv h.1
    obtain ⟨ds', rfl, hr'⟩ := hr.cons_inv h.2
    obtain ⟨pl, ql, pr, qr, e1, e2, s1, t1, s2, t2, k1, k2, k3, k4⟩ := ih _ _ hl' hr'
    have hcd := (same_iff lower m _ _).1 hs
    have hc47 : ¬ canon lower m (it.peek l) = 47 := fun e => h3 ((slash_same lower m _ _ hs).2 e)
    have hd47 := hcd ▸ hc47
    refine ⟨it.peek l :: pl, ql, it.peek r :: pr, qr,
      ?_, ?_, .cons rfl h.1 s1, t1, .cons rfl h.2 s2, t2, ?_, ?_, ?_, ?_⟩
    · rw [List.cons_append, ← e1]
    · rw [List.cons_append, ← e2]
    · rw [key_cons, key_cons, key_cons, if_neg hc47, if_neg hc47, if_neg hd47, lcp, if_pos hcd, k1]
    · rw [key_cons, key_cons, key_cons, if_neg hc47, if_neg hd47, if_neg hd47, lcp, if_pos hcd, k2, hcd]
    · rw [key_cons, key_cons, if_neg hc47, if_neg hc47, k3]; rfl
    · rw [key_cons, key_cons, if_neg hd47, if_neg hd47, k4]; rfl
  | case3 l r h c d hs =>
    obtain ⟨cs', rfl, hl'⟩ := hl.cons_inv h.1
    obtain ⟨ds', rfl, hr'⟩ := hr.cons_inv h.2
    have hcd : ¬ canon lower m (it.peek l) = canon lower m (it.peek r) := fun e => hs ((same_iff lower m _ _).2 e)
    refine ⟨[], _, [], _, rfl, rfl, .nil _, hl, .nil _, hr, ?_, ?_, by rw [key_nil]; rfl, by rw [key_nil]; rfl⟩ <;>
    · rw [key_nil, key_cons, key_cons, lcp, if_neg hcd]
  | case4 l r h =>
    have : cs = [] ∨ ds = [] := by
      by_cases h1 : it.peek l = 0
      · exact .inl (hl.nil_inv h1).1
      · exact .inr (hr.nil_inv (by
          by_cases h2 : it.peek r = 0
          · exact h2
          · exact absurd ⟨h1, h2⟩ h)).1
    have hlcp : lcp (key lower m cs) (key lower m ds) = [] := by
      rcases this with rfl | rfl
      · rw [key_nil]; simp [lcp]
      · rw [key_nil]; cases key lower m cs <;> simp [lcp]
    exact ⟨[], cs, [], ds, rfl, rfl, .nil _, hl, .nil _, hr, by rw [key_nil, hlcp], by rw [key_nil, hlcp],
      by rw [key_nil]; rfl, by rw [key_nil]; rfl⟩

theorem lcp_self (a : List Nat) : lcp a a = a := by
  induction a with
  | nil => rfl
  | cons x a ih => rw [lcp, if_pos rfl, ih]

theorem key_eq_nil (lower : Nat → Nat) (m : Mode) (cs : List Nat) (h : key lower m cs = []) : cs = [] := by
  cases cs with
  | nil => rfl
  | cons => rw [key_cons] at h; simp at h

end Clink.StrCompare
