import Verif.Proof.StrCompare
/- C29: string comparison computes the true common prefix. -/
namespace Clink.StrCompare
open Clink

/-- C29 (common prefix): the comparison stops, on both sides, exactly after the longest common
prefix of what is compared; the number returned (when asked for the common length, or when
anything is left) is the number of units of `l` before that point. -/
theorem C29_common_prefix (lower : Nat → Nat) (it : Iter) (m : Mode) (l r cs ds sl sr : List Nat)
    (hl : Text it l cs sl) (hr : Text it r ds sr) :
    ∃ pl ql pr qr, cs = pl ++ ql ∧ ds = pr ++ qr ∧
      (strCompare lower it m true l r).1 = ((l.length - (strCompare lower it m true l r).2.1.length : Nat) : Int) ∧
      Steps it l pl (strCompare lower it m true l r).2.1 ∧
      Steps it r pr (strCompare lower it m true l r).2.2 ∧
      key lower m pl = lcp (key lower m cs) (key lower m ds) ∧
      key lower m pr = lcp (key lower m cs) (key lower m ds) := by
  obtain ⟨pl, ql, pr, qr, e1, e2, s1, t1, s2, t2, k1, k2, k3, k4⟩ := loop_spec lower it m l r cs ds sl sr hl hr
  exact ⟨pl, ql, pr, qr, e1, e2, rfl, s1, s2, k1, k2⟩

/-- C29 (equality): for texts that are completely decodable, -1 is returned exactly when the
two texts are the same up to the mode; otherwise the same count as above is returned. -/
theorem C29_equal (lower : Nat → Nat) (it : Iter) (m : Mode) (l r cs ds sl sr : List Nat)
    (hl : Text it l cs sl) (hr : Text it r ds sr) (h1 : Utf.more sl = false) (h2 : Utf.more sr = false)
    (hm : ∀ x, Utf.more x = false → it.peek x = 0) :
    ((strCompare lower it m false l r).1 = -1 ↔ key lower m cs = key lower m ds) ∧
    ((strCompare lower it m false l r).1 ≠ -1 →
      (strCompare lower it m false l r).1 = (strCompare lower it m true l r).1) := by
  obtain ⟨pl, ql, pr, qr, e1, e2, s1, t1, s2, t2, k1, k2, k3, k4⟩ := loop_spec lower it m l r cs ds sl sr hl hr
  have hend : ∀ e q s, Text it e q s → Utf.more s = false → (Utf.more e = false ↔ q = []) := by
    intro e q s ht hs
    constructor
    · intro he; exact (ht.nil_inv (hm e he)).1
    · intro hq; subst hq
      obtain ⟨hst, -⟩ := ht
      cases hst
      exact hs
  have hA := hend _ _ _ t1 h1
  have hB := hend _ _ _ t2 h2
  have hkey : key lower m cs = key lower m ds ↔ ql = [] ∧ qr = [] := by
    constructor
    · intro hk
      rw [hk, lcp_self] at k1 k2
      rw [hk, k1] at k3
      rw [k2] at k4
      have x3 : key lower m ql = [] := by
        have := congrArg List.length k3
        rw [List.length_append] at this
        exact List.eq_nil_of_length_eq_zero (by omega)
      have x4 : key lower m qr = [] := by
        have := congrArg List.length k4
        rw [List.length_append] at this
        exact List.eq_nil_of_length_eq_zero (by omega)
      exact ⟨key_eq_nil _ _ _ x3, key_eq_nil _ _ _ x4⟩
    · rintro ⟨rfl, rfl⟩
      rw [key_nil, List.append_nil] at k3 k4
      rw [k3, k4]
      exact k1.trans k2.symm
  unfold strCompare
  simp only [Bool.false_or]
  constructor
  · rw [hkey, ← hA, ← hB]
    constructor
    · intro h
      split at h
      · simp only at h; omega
      · rename_i hh
        simpa using hh
    · rintro ⟨x, y⟩
      rw [if_neg (by rw [x, y]; simp)]
  · intro h
    split
    · rfl
    · rename_i hh
      rw [if_neg hh] at h
      exact absurd rfl h

/-- The two iterators of the program satisfy the side condition of `C29_equal`. -/
theorem peek8_end (x : List Nat) (h : Utf.more x = false) : Utf.iter8.peek x = 0 := by
  cases x with
  | nil => rfl
  | cons c r =>
    have : c = 0 := by simpa [Utf.more] using h
    subst this; rfl
theorem peek16_end (x : List Nat) (h : Utf.more x = false) : Utf.iter16.peek x = 0 := by
  cases x with
  | nil => rfl
  | cons c r =>
    have : c = 0 := by simpa [Utf.more] using h
    subst this; rfl

/-- C29 (equivalence): "compares equal" does not depend on the order of the arguments, holds of
a text and itself, and is transitive. -/
theorem C29_equivalence (lower : Nat → Nat) (m : Mode) (l r t cs ds es sl sr st : List Nat)
    (hl : Text Utf.iter8 l cs sl) (hr : Text Utf.iter8 r ds sr) (ht : Text Utf.iter8 t es st)
    (h1 : Utf.more sl = false) (h2 : Utf.more sr = false) (h3 : Utf.more st = false) :
    (strCompare lower Utf.iter8 m false l l).1 = -1 ∧
    ((strCompare lower Utf.iter8 m false l r).1 = -1 → (strCompare lower Utf.iter8 m false r l).1 = -1) ∧
    ((strCompare lower Utf.iter8 m false l r).1 = -1 → (strCompare lower Utf.iter8 m false r t).1 = -1 →
      (strCompare lower Utf.iter8 m false l t).1 = -1) := by
  have e := fun {l r cs ds sl sr} (hl : Text Utf.iter8 l cs sl) (hr : Text Utf.iter8 r ds sr) h1 h2 =>
    (C29_equal lower Utf.iter8 m l r cs ds sl sr hl hr h1 h2 peek8_end).1
  rw [e hl hl h1 h1, e hl hr h1 h2, e hr hl h2 h1, e hr ht h2 h3, e hl ht h1 h3]
  exact ⟨rfl, Eq.symm, Eq.trans⟩

/-- C29 (what is compared): outside the exact-slash mode, texts are compared class by class with
runs of separators counting as one '/'. -/
theorem C29_key_collapse (lower : Nat → Nat) (hok : LowerOk lower) (m : Mode) (hm : m.exactSlash = false)
    (cs : List Nat) : key lower m cs = collapse (cs.map (canon lower m)) := by
  have hsep : ∀ c, canon lower m c = 47 ↔ isSep c = true := by
    intro c
    rw [canon_eq]
    have hf : fold lower m c = 47 ↔ isSep c = true := by
      unfold fold isSep
      rw [hm]
      have a := hok.slash c
      have b := hok.back c
      simp only [Bool.false_eq_true, if_false, beq_iff_eq, Bool.or_eq_true]
      by_cases h1 : m.mode > 0 <;> by_cases h2 : m.mode > 1 <;> by_cases h3 : c > 0xffff <;>
        simp only [h1, h2, h3, if_true, if_false] <;> (repeat' split) <;> omega
    cases m.fuzzy
    · simpa using hf
    · simp only [if_true, unaccent_slash]; exact hf
  generalize hn : cs.length = n
  induction n using Nat.strongRecOn generalizing cs with
  | ind n ih =>
    cases cs with
    | nil => rw [key_nil]; rfl
    | cons c cs =>
      rw [key_cons]
      by_cases hc : canon lower m c = 47
      · rw [if_pos hc]
        have hlen := (List.dropWhile_suffix (l := cs) isSep).length_le
        have : ∀ s : List Nat, collapse (47 :: s.map (canon lower m)) =
            47 :: collapse ((s.dropWhile isSep).map (canon lower m)) := by
          intro s
          induction s with
          | nil => rfl
          | cons d s ihs =>
            by_cases hd : isSep d = true
            · rw [List.dropWhile_cons_of_pos hd, List.map_cons, (hsep d).2 hd, collapse, if_pos ⟨rfl, rfl⟩, ihs]
            · rw [List.dropWhile_cons_of_neg hd, List.map_cons, collapse,
                if_neg (by rw [hsep d]; exact fun h => hd h.2)]
        rw [List.map_cons, hc, this]
        congr 1
        exact ih _ (by simp at hn; omega) _ rfl
      · rw [if_neg hc, ih cs.length (by simp at hn; omega) cs rfl, List.map_cons]
        cases hcs : cs.map (canon lower m) with
        | nil => rfl
        | cons d s => rw [collapse, if_neg (fun h => hc h.1)]

/-- C29 (modes are ordered): texts equal in the exact mode are equal in the caseless mode, and
texts equal in the caseless mode are equal in the relaxed mode; accent folding makes the
relation coarser still. -/
theorem C29_coarser (lower : Nat → Nat) (hok : LowerOk lower) (f : Bool) (cs ds : List Nat) :
    (key lower ⟨0, false, false⟩ cs = key lower ⟨0, false, false⟩ ds →
      key lower ⟨1, false, false⟩ cs = key lower ⟨1, false, false⟩ ds) ∧
    (key lower ⟨1, false, false⟩ cs = key lower ⟨1, false, false⟩ ds →
      key lower ⟨2, false, false⟩ cs = key lower ⟨2, false, false⟩ ds) ∧
    (∀ n, key lower ⟨n, false, false⟩ cs = key lower ⟨n, false, false⟩ ds →
      key lower ⟨n, f, false⟩ cs = key lower ⟨n, f, false⟩ ds) := by
  -- a map that keeps '/' apart from everything else commutes with collapsing
  have hmap : ∀ (g : Nat → Nat), (∀ c, g c = 47 ↔ c = 47) → ∀ l : List Nat, collapse (l.map g) = (collapse l).map g := by
    intro g hg l
    induction l with
    | nil => rfl
    | cons a l ih =>
      cases l with
      | nil => rfl
      | cons b l =>
        simp only [List.map_cons, collapse] at ih ⊢
        by_cases h : a = 47 ∧ b = 47
        · rw [if_pos h, if_pos ⟨(hg a).2 h.1, (hg b).2 h.2⟩]; exact ih
        · rw [if_neg h, if_neg (fun h' => h ⟨(hg a).1 h'.1, (hg b).1 h'.2⟩), ih]; rfl
  have hgen : ∀ (m m' : Mode) (g : Nat → Nat), m.exactSlash = false → m'.exactSlash = false →
      (∀ c, g c = 47 ↔ c = 47) → (∀ c, canon lower m' c = g (canon lower m c)) →
      key lower m cs = key lower m ds → key lower m' cs = key lower m' ds := by
    intro m m' g hm hm' hg hc h
    rw [C29_key_collapse lower hok m hm, C29_key_collapse lower hok m hm] at h
    rw [C29_key_collapse lower hok m' hm', C29_key_collapse lower hok m' hm']
    have e : canon lower m' = g ∘ canon lower m := funext hc
    rw [e, ← List.map_map, ← List.map_map, hmap g hg, hmap g hg, h]
  refine ⟨?_, ?_, ?_⟩
  · refine hgen _ _ (fun c => if c ≤ 0xffff then lower c else c) rfl rfl ?_ ?_
    · intro c
      have a := hok.slash c
      by_cases h : c ≤ 0xffff
      · simp only [h, if_true]; exact a
      · simp only [h, if_false]
    · intro c
      have a := hok.back c
      have b := (hok.slash 47).2 rfl
      clear hgen hmap
      by_cases h2 : c = 92
      · subst h2; simp_all [canon]
      · by_cases h : c ≤ 0xffff
        · have a' : lower c ≠ 92 := fun e => h2 (a.1 e)
          simp [canon, h, h2, a']
        · simp [canon, h, h2]
  · refine hgen _ _ (fun c => if c = 45 then 95 else c) rfl rfl ?_ ?_
    · intro c; split <;> omega
    · intro c
      clear hgen hmap
      simp only [canon, Nat.reduceLeDiff, Nat.le_refl, true_and, ge_iff_le, false_and, if_false,
        Bool.false_eq_true]
      generalize (if c ≤ 65535 then lower c else c) = x
      (repeat' split) <;> omega
  · intro n
    cases f
    · exact id
    · refine hgen _ _ unaccent rfl rfl unaccent_slash (fun c => ?_)
      rfl

/-- C29 (accents): the binary search in the accent table finds what a plain search finds. -/
theorem C29_accent_lookup (c : Nat) : normalizeAccent c = unaccent c ∧ normalizeAccent (normalizeAccent c) = normalizeAccent c := by
  rw [normalizeAccent_eq, normalizeAccent_eq, unaccent_idem]
  exact ⟨rfl, rfl⟩

/-- Disagreement: the hypothesis "completely decodable" of `C29_equal` is needed.  Two identical
byte strings that end in an incomplete UTF-8 sequence are reported as different: `more()` is
still true while `next()` has nothing to give. -/
theorem C29_identical_but_different (lower : Nat → Nat) :
    (strCompare lower Utf.iter8 ⟨0, false, false⟩ false [0x61, 0xC3] [0x61, 0xC3]).1 = 1 := by
  have e0 : Utf.iter8.next [0x61, 0xC3] = (0x61, [0xC3]) := by decide
  have e1 : Utf.iter8.next [0xC3] = (0, []) := by decide
  unfold strCompare
  have : loop lower Utf.iter8 ⟨0, false, false⟩ [0x61, 0xC3] [0x61, 0xC3] = ([0xC3], [0xC3]) := by
    rw [loop, dif_pos (by unfold Iter.peek; rw [e0]; simp)]
    simp only [Iter.peek, Iter.adv, e0, same, if_true, fold]
    rw [if_neg (by simp)]
    rw [loop, dif_neg (by unfold Iter.peek; rw [e1]; simp)]
  rw [this]
  rfl

/-! Concrete instances: "Foo\\\\Bar" against "foo/baz", caseless. -/
def asciiLower (c : Nat) : Nat := if 65 ≤ c ∧ c ≤ 90 then c + 32 else c
example : LowerOk asciiLower := by
  constructor <;> intro c <;> unfold asciiLower <;> split <;> omega
example : Text Utf.iter8 [70, 92, 92, 66] [70, 92, 92, 66] [] ∧ Text Utf.iter8 [102, 47, 98, 97] [102, 47, 98, 97] [] ∧
    key asciiLower ⟨1, false, false⟩ [70, 92, 92, 66] = [102, 47, 98] ∧
    lcp [102, 47, 98] [102, 47, 98, 97] = [102, 47, 98] := by
  refine ⟨⟨.cons rfl (by decide) (.cons rfl (by decide) (.cons rfl (by decide) (.cons rfl (by decide) (.nil _)))), rfl⟩,
    ⟨.cons rfl (by decide) (.cons rfl (by decide) (.cons rfl (by decide) (.cons rfl (by decide) (.nil _)))), rfl⟩, ?_, rfl⟩
  rw [C29_key_collapse _ (by constructor <;> intro c <;> unfold asciiLower <;> split <;> omega) _ rfl]
  decide
example : normalizeAccent 0x00E9 = 101 ∧ normalizeAccent 0x1EF9 = 121 ∧ normalizeAccent 0x61 = 0x61 := by
  rw [normalizeAccent_eq, normalizeAccent_eq, normalizeAccent_eq]
  decide +kernel

end Clink.StrCompare
