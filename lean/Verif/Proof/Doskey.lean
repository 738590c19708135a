import Verif.Model.Doskey
import Verif.Spec.Doskey
import Verif.Proof.Utf

namespace Clink.Doskey

open Utf (more next8 specUtf8 IsText)
open Spec

theorem next_suffix (l : List Nat) : next l <:+ l := Utf.next8Loop_suffix 0 0 l

theorem between_append {a b : List Nat} (h : b <:+ a) : between a b ++ b = a := by
  obtain ⟨x, rfl⟩ := h
  simp [between]

theorem flat_cons (c : Nat) (cs : List Nat) : flat (c :: cs) = specUtf8 c ++ flat cs := rfl
theorem flat_nil : flat [] = [] := rfl
theorem flat_append (a b : List Nat) : flat (a ++ b) = flat a ++ flat b := by simp [flat]

theorem more_flat {c : Nat} (h : IsText c) (l : List Nat) : more (specUtf8 c ++ l) = true :=
  Utf.more_of_pos (Utf.specUtf8_ne_nil c) (Utf.specUtf8_pos c h.1) l

theorem peek_flat {c : Nat} (h : IsText c) (l : List Nat) : peek (specUtf8 c ++ l) = c := by
  unfold peek; rw [Utf.next8_spec c h.1 h.2.1]

theorem next_flat {c : Nat} (h : IsText c) (l : List Nat) : next (specUtf8 c ++ l) = l := by
  unfold next; rw [Utf.next8_spec c h.1 h.2.1]

theorem spec_ascii {c : Nat} (h : c < 128) : specUtf8 c = [c] := by simp [specUtf8, h]

theorem flat_noZero {cs : List Nat} (h : ∀ c ∈ cs, IsText c) : 0 ∉ flat cs := by
  intro hz
  simp only [flat, List.mem_flatMap] at hz
  obtain ⟨c, hc, hz⟩ := hz
  exact Utf.specUtf8_pos c (h c hc).1 0 hz rfl

theorem more_eq {l : List Nat} (h : 0 ∉ l) : more l = true ↔ l ≠ [] := by
  cases l with
  | nil => simp [more]
  | cons c l => simp at h; simp [more]; omega

theorem Spec.Wf.nil : Wf [] := ⟨[], by simp, rfl⟩

theorem Spec.Wf.noZero {l : List Nat} (h : Wf l) : 0 ∉ l := by
  obtain ⟨cs, h, rfl⟩ := h
  exact flat_noZero h

theorem Spec.Wf.cases {l : List Nat} (h : Wf l) : l = [] ∨ ∃ c l', IsText c ∧ Wf l' ∧ l = specUtf8 c ++ l' := by
  obtain ⟨cs, h, rfl⟩ := h
  cases cs with
  | nil => exact .inl rfl
  | cons c cs => exact .inr ⟨c, flat cs, h c (by simp), ⟨cs, fun d hd => h d (List.mem_cons_of_mem _ hd), rfl⟩, rfl⟩

theorem Spec.Wf.next {l : List Nat} (h : Wf l) : Wf (next l) := by
  rcases h.cases with rfl | ⟨c, l', hc, hl, rfl⟩
  · exact Wf.nil
  · rw [next_flat hc]; exact hl

theorem Spec.Wf.tail {c : Nat} {l : List Nat} (h : Wf (c :: l)) (hc : c < 128) : Wf l := by
  rcases h.cases with h | ⟨d, l', hd, hl, e⟩
  · simp at h
  · by_cases h128 : d < 128
    · rw [spec_ascii h128] at e
      simp at e
      rw [e.2]; exact hl
    · exfalso
      unfold specUtf8 at e
      have := hd.2.1
      rw [if_neg h128] at e
      split at e
      · simp at e; omega
      · split at e
        · simp at e; omega
        · simp at e; omega

/-- The first byte of well-formed text is the first code point if that is ASCII. -/
theorem Spec.Wf.head {l : List Nat} (h : Wf l) (hm : more l = true) (ha : peek l < 128) : ∃ l', l = peek l :: l' ∧ Wf l' := by
  rcases h.cases with rfl | ⟨d, l', hd, hl, rfl⟩
  · simp [more] at hm
  · rw [peek_flat hd] at ha ⊢
    rw [spec_ascii ha]
    exact ⟨l', rfl, hl⟩

/-! All iterators are suffixes. -/

theorem parenLoop_suffix (l orig : List Nat) (n : Nat) (h : l <:+ orig) :
    (parenLoop l orig n).1 <:+ orig := by
  fun_induction parenLoop l orig n with
  | case1 l orig n hm hp l1 l2 ih =>
    have h2 : l2 <:+ l := by
      simp only [l2, l1]
      split
      · exact (next_suffix _).trans (next_suffix _)
      · exact next_suffix _
    exact (ih (List.suffix_refl _)).trans (h2.trans h)
  | case2 l orig n hm hp hq ih => exact ih ((next_suffix _).trans h)
  | case3 => exact List.suffix_refl _
  | case4 => exact List.suffix_refl _

theorem skipParens_suffix (lookup : Lookup) (fe : Bool) (l : List Nat) : (skipParens lookup fe l).1 <:+ l := by
  unfold skipParens
  split
  · exact List.suffix_refl _
  · exact parenLoop_suffix _ _ _ (List.suffix_refl _)

theorem aliasEnd_suffix (r : Bool) (l : List Nat) : aliasEnd r l <:+ l := by
  fun_induction aliasEnd r l with
  | case1 l hm hp l1 ih =>
    refine ih.trans ?_
    split
    · exact (next_suffix _).trans (next_suffix _)
    · exact next_suffix _
  | case2 => exact List.suffix_refl _
  | case3 l hm hp hq ih => exact ih.trans (next_suffix _)
  | case4 => exact List.suffix_refl _

theorem skipSpaces_suffix (l : List Nat) : skipSpaces l <:+ l := by
  fun_induction skipSpaces l with
  | case1 l hm hp ih => exact ih.trans (next_suffix _)
  | case2 => exact List.suffix_refl _
  | case3 => exact List.suffix_refl _

theorem findEnd_suffix (q : Bool) (l : List Nat) : findEnd q l <:+ l := by
  fun_induction findEnd q l with
  | case1 q l hm c l1 hc ih => exact ih.trans (next_suffix _)
  | case2 l hm c l1 hc ih => exact ih.trans (next_suffix _)
  | case3 q l hm c l1 hc hq hg ih => exact ih.trans ((next_suffix _).trans (next_suffix _))
  | case4 q l hm c l1 hc hq hg hg2 ih => exact ih.trans ((next_suffix _).trans (next_suffix _))
  | case5 => exact List.suffix_refl _
  | case6 q l hm c l1 hc hq hg hg2 hs ih => exact ih.trans (next_suffix _)
  | case7 => exact List.suffix_refl _

theorem findEnd_wf (q : Bool) (l : List Nat) (h : Wf l) : Wf (findEnd q l) := by
  fun_induction findEnd q l with
  | case1 q l hm c l1 hc ih => exact ih h.next
  | case2 l hm c l1 hc ih => exact ih h.next
  | case3 q l hm c l1 hc hq hg ih => exact ih h.next.next
  | case4 q l hm c l1 hc hq hg hg2 ih => exact ih h.next.next
  | case5 => exact h
  | case6 q l hm c l1 hc hq hg hg2 hs ih => exact ih h.next
  | case7 => exact h

/-- A command ends at the end of the text or at a separator. -/
theorem findEnd_stop (q : Bool) (l : List Nat) : more (findEnd q l) = false ∨ peek (findEnd q l) = 124 ∨ peek (findEnd q l) = 38 := by
  fun_induction findEnd q l with
  | case1 _ _ _ _ _ _ ih => exact ih
  | case2 _ _ _ _ _ ih => exact ih
  | case3 _ _ _ _ _ _ _ _ ih => exact ih
  | case4 _ _ _ _ _ _ _ _ _ ih => exact ih
  | case5 _ _ _ _ _ _ _ _ _ h => exact .inr h
  | case6 _ _ _ _ _ _ _ _ _ _ ih => exact ih
  | case7 q l h => left; simpa using h

theorem skipSpaces_wf (l : List Nat) (h : Wf l) : Wf (skipSpaces l) := by
  fun_induction skipSpaces l with
  | case1 l hm hp ih => exact ih h.next
  | case2 => exact h
  | case3 => exact h

theorem aliasEnd_wf (r : Bool) (l : List Nat) (h : Wf l) : Wf (aliasEnd r l) := by
  fun_induction aliasEnd r l with
  | case1 l hm hp l1 ih =>
    refine ih ?_
    split
    · exact h.next.next
    · exact h.next
  | case2 => exact h
  | case3 l hm hp hq ih => exact ih h.next
  | case4 => exact h

theorem parenLoop_wf (l orig : List Nat) (n : Nat) (h : Wf l) (ho : Wf orig) : Wf (parenLoop l orig n).1 := by
  fun_induction parenLoop l orig n with
  | case1 l orig n hm hp l1 l2 ih =>
    have : Wf l2 := by
      simp only [l2, l1]
      split
      · exact h.next.next
      · exact h.next
    exact ih this this
  | case2 l orig n hm hp hq ih => exact ih h.next ho
  | case3 => exact ho
  | case4 => exact ho

theorem skipParens_wf (lookup : Lookup) (fe : Bool) (l : List Nat) (h : Wf l) : Wf (skipParens lookup fe l).1 := by
  unfold skipParens
  split
  · exact h
  · exact parenLoop_wf _ _ _ h h

theorem parenLoop_skips (l orig pre : List Nat) (n : Nat) (h : Wf l) (hp : Skippable pre) (he : orig = pre ++ l) :
    ∃ x, orig = x ++ (parenLoop l orig n).1 ∧ Skippable x := by
  fun_induction parenLoop l orig n generalizing pre with
  | case1 l orig n hm hp' l1 l2 ih =>
    obtain ⟨y, hy, hwy⟩ := h.head hm (by rw [hp']; omega)
    have h1 : l1 = y := by
      simp only [l1]
      rcases h.cases with rfl | ⟨d, l', hd, hl, rfl⟩
      · simp [more] at hm
      · rw [peek_flat hd] at hy hp'
        subst hp'
        rw [next_flat hd]
        simpa [specUtf8] using hy
    have h2 : ∃ z, l = z ++ l2 ∧ Skippable z := by
      have : l2 = if more l1 = true ∧ (peek l1 = 32 ∨ peek l1 = 64) then next l1 else l1 := rfl
      split at this
      · rename_i hc
        have hl1 : Wf l1 := h1 ▸ hwy
        have hlt : peek l1 < 128 := by rcases hc.2 with h | h <;> rw [h] <;> omega
        obtain ⟨u, hu, hwu⟩ := hl1.head hc.1 hlt
        have hn : next l1 = u := by
          rcases hl1.cases with h | ⟨d, l', hd, hl, h⟩
          · rw [h] at hc; simp [more] at hc
          · rw [h, peek_flat hd] at hlt
            rw [h, next_flat hd]
            rw [h, peek_flat hd, spec_ascii hlt] at hu
            simpa using hu
        refine ⟨[40, peek l1], ?_, ?_⟩
        · rw [this, hn, hy, hp', ← h1]; simp [← hu]
        · intro c hc'
          simp at hc'
          rcases hc' with rfl | rfl
          · simp
          · rcases hc.2 with h | h <;> simp [h]
      · refine ⟨[40], ?_, by simp [Skippable]⟩
        rw [this, hy, hp', h1]; rfl
    obtain ⟨z, hz, hsz⟩ := h2
    have hwf2 : Wf l2 := by
      simp only [l2, l1]
      split
      · exact h.next.next
      · exact h.next
    obtain ⟨x, hx, hsx⟩ := ih [] hwf2 (by simp [Skippable]) rfl
    refine ⟨pre ++ z ++ x, ?_, ?_⟩
    · rw [he, hz, List.append_assoc, List.append_assoc, ← hx]
    · intro c hc'
      simp only [List.mem_append] at hc'
      rcases hc' with (h | h) | h
      · exact hp c h
      · exact hsz c h
      · exact hsx c h
  | case2 l orig n hm hp' hq ih =>
    have hlt : peek l < 128 := by rcases hq with h | h <;> rw [h] <;> omega
    obtain ⟨u, hu, hwu⟩ := h.head hm hlt
    have hn : next l = u := by
      rcases h.cases with h' | ⟨d, l', hd, hl, h'⟩
      · rw [h'] at hm; simp [more] at hm
      · rw [h', peek_flat hd] at hlt
        rw [h', next_flat hd]
        rw [h', peek_flat hd, spec_ascii hlt] at hu
        simpa using hu
    refine ih (pre ++ [peek l]) h.next ?_ ?_
    · intro c hc
      rcases List.mem_append.1 hc with h | h
      · exact hp c h
      · simp at h; subst h; rcases hq with h | h <;> simp [h]
    · rw [he, hn]
      conv => lhs; rw [hu]
      simp
  | case3 => exact ⟨[], rfl, by simp [Skippable]⟩
  | case4 => exact ⟨[], rfl, by simp [Skippable]⟩

theorem skipParens_skips (lookup : Lookup) (fe : Bool) (l : List Nat) (h : Wf l) :
    ∃ x, l = x ++ (skipParens lookup fe l).1 ∧ Skippable x := by
  unfold skipParens
  split
  · exact ⟨[], rfl, by simp [Skippable]⟩
  · exact parenLoop_skips l l [] 0 h (by simp [Skippable]) rfl

theorem trimLoop_le (start : List Nat) (off n ret p : Nat) (h : n ≤ ret) : trimLoop start off n ret p ≤ ret := by
  induction n generalizing ret p with
  | zero => simp [trimLoop]
  | succ n ih =>
    rw [trimLoop]
    split
    · split
      · have := ih n (p - 1) (Nat.le_refl _); omega
      · split
        · exact Nat.le_refl _
        · exact ih ret p (by omega)
    · exact Nat.le_refl _

theorem trimParens_le (start : List Nat) (off n p : Nat) : trimParens start off n p ≤ n := trimLoop_le _ _ _ _ _ (Nat.le_refl _)

theorem trimParens_zero (start : List Nat) (off n : Nat) : trimParens start off n 0 = n := by
  cases n <;> simp [trimParens, trimLoop]

/-- What an attempt finds. -/
theorem tryAlias_spec {lookup : Lookup} {r : Bool} {l : List Nat} {a : Alias} (hw : Wf l) (h : tryAlias lookup r l = some a) :
    lookup a.name = some a.text ∧ a.name ≠ [] ∧ Skippable a.skipped ∧ Wf a.rest ∧
      ∃ y, l = a.skipped ++ (a.name ++ (y ++ a.rest)) := by
  unfold tryAlias at h
  have hs := skipParens_suffix lookup true l
  obtain ⟨x, hx, hsx⟩ := skipParens_skips lookup true l hw
  have hwf := skipParens_wf lookup true l hw
  generalize skipParens lookup true l = sp at h hs hx hwf
  obtain ⟨start, parens⟩ := sp
  simp only at h hs hx hwf
  split at h
  · simp at h
  · split at h
    · simp at h
    · rename_i hne
      simp only [Option.map_eq_some_iff] at h
      obtain ⟨text, ht, rfl⟩ := h
      have hb : between l start = x := by rw [hx]; simp [between]
      simp only
      refine ⟨ht, hne, by rw [hb]; exact hsx, skipSpaces_wf _ (aliasEnd_wf _ _ hwf), ?_⟩
      rw [hb]
      generalize hk : trimParens start 0 (start.length - (aliasEnd r start).length) parens = k
      have hkle : k ≤ start.length - (aliasEnd r start).length := hk ▸ trimParens_le _ _ _ _
      have hes := aliasEnd_suffix r start
      have hss := (skipSpaces_suffix (aliasEnd r start)).trans hes
      have hl := (skipSpaces_suffix (aliasEnd r start)).length_le
      have hl2 := hes.length_le
      generalize skipSpaces (aliasEnd r start) = R at hss hl
      obtain ⟨z, hz⟩ := hss
      have hkz : k ≤ z.length := by
        have := congrArg List.length hz
        simp at this; omega
      refine ⟨z.drop k, ?_⟩
      rw [hx]
      congr 1
      rw [← hz, List.take_append_of_le_length hkz, ← List.append_assoc, List.take_append_drop]

theorem getAlias_spec {lookup : Lookup} {enh : Bool} {l : List Nat} {a : Alias} (hw : Wf l) (h : getAlias lookup enh l = some a) :
    lookup a.name = some a.text ∧ a.name ≠ [] ∧ Skippable a.skipped ∧ Wf a.rest ∧
      ∃ y, l = a.skipped ++ (a.name ++ (y ++ a.rest)) := by
  unfold getAlias at h
  split at h
  · rename_i b hb
    injection h with h
    subst h
    exact tryAlias_spec hw hb
  · split at h
    · exact tryAlias_spec hw h
    · simp at h

theorem copyDelims_spec (l : List Nat) (h : Wf l) :
    (copyDelims l).1 ++ (copyDelims l).2 = l ∧ Wf (copyDelims l).2 ∧ (∀ c ∈ (copyDelims l).1, c = 124 ∨ c = 38) ∧
    (∀ c, l.head? = some c → c = 124 ∨ c = 38 → (copyDelims l).1 ≠ []) := by
  induction l with
  | nil => exact ⟨rfl, Wf.nil, by simp [copyDelims], by simp⟩
  | cons c l ih =>
    unfold copyDelims
    split
    · rename_i hc
      obtain ⟨h1, h2, h3, -⟩ := ih (h.tail (by omega))
      refine ⟨by simp [h1], h2, ?_, by simp⟩
      intro d hd
      rcases List.mem_cons.1 hd with rfl | hd
      · exact hc
      · exact h3 d hd
    · rename_i hc
      refine ⟨rfl, h, by simp, ?_⟩
      intro d hd h'
      simp at hd; subst hd; exact absurd h' hc

theorem copySpace_spec (l : List Nat) (h : Wf l) : (copySpace l).1 ++ (copySpace l).2 = l ∧ Wf (copySpace l).2 := by
  unfold copySpace
  split
  · exact ⟨rfl, h.tail (by omega)⟩
  · exact ⟨rfl, h⟩

/-! Arguments. -/

theorem skipDelims_suffix (l : List Nat) : skipDelims l <:+ l := by
  fun_induction skipDelims l with
  | case1 l hm hp ih => exact ih.trans (next_suffix _)
  | case2 => exact List.suffix_refl _
  | case3 => exact List.suffix_refl _

theorem tokenEnd_suffix (q b : Bool) (l : List Nat) : tokenEnd q b l <:+ l := by
  fun_induction tokenEnd q b l with
  | case1 => exact List.suffix_refl _
  | case2 _ _ _ _ ih => exact ih.trans (next_suffix _)
  | case3 => exact List.suffix_refl _
  | case4 _ _ _ _ _ _ _ ih => exact ih.trans (next_suffix _)
  | case5 => exact List.suffix_refl _

/-- Every argument is where it is said to be. -/
theorem collect_spec (q : Bool) (n : Nat) (l : List Nat) : ∀ a ∈ collect q n l, a.1 <+: a.2 ∧ a.2 <:+ l := by
  induction n generalizing l with
  | zero => simp [collect]
  | succ n ih =>
    unfold collect
    split
    · simp
    · rename_i w start e h
      unfold nextToken at h
      simp only at h
      split at h
      · simp at h
      · injection h with h
        simp only [Prod.mk.injEq] at h
        obtain ⟨rfl, rfl, rfl⟩ := h
        intro a ha
        rcases List.mem_cons.1 ha with rfl | ha
        · exact ⟨List.take_prefix _ _, skipDelims_suffix _⟩
        · obtain ⟨h1, h2⟩ := ih _ a ha
          exact ⟨h1, h2.trans ((tokenEnd_suffix _ _ _).trans (skipDelims_suffix _))⟩

theorem argText_eq {args : List (List Nat × List Nat)} (h : ∀ a ∈ args, a.1 <+: a.2 ∧ a.1.length < 32768) (i : Nat) :
    argText args i = some ((args.map (·.1)).getD i []) := by
  unfold argText
  cases hi : args[i]? with
  | none => simp [hi]
  | some a =>
    obtain ⟨h1, h2⟩ := h a (List.mem_of_getElem? hi)
    have : shortLen a.1.length = some a.1.length := by unfold shortLen; rw [Nat.mod_eq_of_lt (by omega), if_pos h2]
    obtain ⟨z, hz⟩ := h1
    simp [hi, this, ← hz]

theorem expand_lit (args : List (List Nat × List Nat)) (star : List Nat) {c : Nat} (hc : c ≠ 36) (l : List Nat) :
    expand args star (c :: l) = (expand args star l).map (c :: ·) := by
  cases l <;> simp [expand, hc]

/-- The expansion loop does what the tags say. -/
theorem expand_spec {args : List (List Nat × List Nat)} (h : ∀ a ∈ args, a.1 <+: a.2 ∧ a.1.length < 32768) (star : List Nat)
    {ts : List Tag} {b : List Nat} (hb : Body ts b) :
    expand args star b = some (ts.flatMap (Tag.value (args.map (·.1)) star)) := by
  induction hb with
  | nil => rfl
  | tail => rfl
  | cons hw hb ih =>
    cases hw with
    | lit c hc =>
      rw [List.cons_append, List.nil_append, expand_lit _ _ hc, ih]
      simp [Tag.value]
    | dollar => simp [expand, ih, Tag.value]
    | gt t ht => rcases ht with rfl | rfl <;> simp [expand, ih, Tag.value]
    | lt t ht => rcases ht with rfl | rfl <;> simp [expand, ih, Tag.value]
    | bar t ht => rcases ht with rfl | rfl <;> simp [expand, ih, Tag.value]
    | newline t ht => rcases ht with rfl | rfl <;> simp [expand, ih, Tag.value]
    | arg i hi =>
      have h1 : ¬ 49 + i = 36 := by omega
      have h2 : ¬ (49 + i = 103 ∨ 49 + i = 71) := by omega
      have h3 : ¬ (49 + i = 108 ∨ 49 + i = 76) := by omega
      have h4 : ¬ (49 + i = 98 ∨ 49 + i = 66) := by omega
      have h5 : ¬ (49 + i = 116 ∨ 49 + i = 84) := by omega
      have h6 : 49 ≤ 49 + i ∧ 49 + i ≤ 57 := by omega
      simp only [List.cons_append, List.nil_append, expand, ne_eq, not_true_eq_false, if_false, h1, h2, h3, h4, h5]
      rw [if_pos h6, show 49 + i - 49 = i by omega, argText_eq h, ih]
      simp [Tag.value]
    | all => simp [expand, ih, Tag.value]
    | unknown t h1 h2 =>
      simp only [List.mem_cons, List.not_mem_nil, or_false, not_or] at h1
      obtain ⟨n1, n2, n3, n4, n5, n6, n7, n8, n9, n10⟩ := h1
      have h6 : ¬ (49 ≤ t ∧ t ≤ 57) := h2
      simp [expand, ih, Tag.value, n1, n2, n3, n4, n5, n6, n7, n8, n9, n10]
      intro h; omega

/-- Every macro body has pieces. -/
theorem body_exists : ∀ b : List Nat, ∃ ts, Body ts b
  | [] => ⟨[], .nil⟩
  | c :: b => by
    by_cases hc : c = 36
    · subst hc
      cases b with
      | nil => exact ⟨[], .tail⟩
      | cons t b =>
        obtain ⟨ts, h⟩ := body_exists b
        by_cases h1 : t = 36
        · subst h1; exact ⟨_, .cons .dollar h⟩
        by_cases h2 : t = 103 ∨ t = 71
        · exact ⟨_, .cons (.gt t h2) h⟩
        by_cases h3 : t = 108 ∨ t = 76
        · exact ⟨_, .cons (.lt t h3) h⟩
        by_cases h4 : t = 98 ∨ t = 66
        · exact ⟨_, .cons (.bar t h4) h⟩
        by_cases h5 : t = 116 ∨ t = 84
        · exact ⟨_, .cons (.newline t h5) h⟩
        by_cases h6 : 49 ≤ t ∧ t ≤ 57
        · have : t = 49 + (t - 49) := by omega
          rw [this]; exact ⟨_, .cons (.arg (t - 49) (by omega)) h⟩
        by_cases h7 : t = 42
        · subst h7; exact ⟨_, .cons .all h⟩
        · refine ⟨_, .cons (.unknown t ?_ h6) h⟩
          simp only [List.mem_cons, List.not_mem_nil, or_false, not_or] at *
          omega
    · obtain ⟨ts, h⟩ := body_exists b
      exact ⟨_, .cons (.lit c hc) h⟩

end Clink.Doskey
