import Verif.Proof.MatchColorsRules
/-! Choosing the colour: which rule fits first, and what a match is. -/
namespace Clink.MatchColors
open Spec (Ty Cond Item active pats simple)

/-! ### The state after all items -/

def ruleIn : Item → Option Rule
  | .pfx _ => none
  | .rule cs c => if simple cs = none then some (ruleOf cs c) else none

theorem fold_rules (l : List Item) : ∀ st : State, (l.foldl addSem st).rules = st.rules ++ l.filterMap ruleIn := by
  induction l with
  | nil => intro st; simp
  | cons i l ih =>
    intro st
    rw [List.foldl_cons, ih]
    cases i with
    | pfx c => rfl
    | rule cs c =>
      cases h : simple cs <;> simp [addSem, h, ruleIn]

theorem fold_stats (l : List Item) : ∀ st : State, (st.stats = true ∨ l ≠ []) → (l.foldl addSem st).stats = true := by
  induction l with
  | nil => intro st h; exact h.resolve_right (fun h => h rfl)
  | cons i l ih =>
    intro st _
    rw [List.foldl_cons]
    apply ih
    left
    cases i with
    | pfx c => rfl
    | rule cs c => cases h : simple cs <;> simp [addSem, h]

def colorStep (t : Ty) (c : Option Text) (i : Item) : Option Text :=
  match i with
  | .rule cs col => if simple cs = some t then some col else c
  | .pfx _ => c

theorem fold_colors (l : List Item) (t : Ty) : ∀ st : State,
    (l.foldl addSem st).colors (toInd t) = l.foldl (colorStep t) (st.colors (toInd t)) := by
  induction l with
  | nil => intro st; rfl
  | cons i l ih =>
    intro st
    rw [List.foldl_cons, ih, List.foldl_cons]
    congr 1
    cases i with
    | pfx c => rfl
    | rule cs c =>
      cases h : simple cs with
      | none => simp [addSem, h, colorStep]
      | some u =>
        simp only [addSem, h, colorStep, Option.some.injEq]
        by_cases e : u = t
        · subst e; simp
        · rw [if_neg e, if_neg (fun e' => e (toInd_inj e').symm)]

theorem typeColor_eq (d : Ty → Option Text) (l : List Item) (t : Ty) : Spec.typeColor d l t = l.foldl (colorStep t) (d t) := rfl

theorem initColors_eq (so : Text) (ro hi : Option Text) (t : Ty) : initColors so ro hi (toInd t) = Spec.actual so ro hi t := by
  cases t
  all_goals first
    | rfl
    | exact congrArg some (by decide +kernel)

theorem fold_pfx (l : List Item) (c : Text) : ∀ st : State, (l.foldl addSem st).pfx.getD c = Spec.prefixColor (st.pfx.getD c) l := by
  induction l with
  | nil => intro st; rfl
  | cons i l ih =>
    intro st
    rw [List.foldl_cons, ih]
    unfold Spec.prefixColor
    rw [List.foldl_cons]
    cases i with
    | pfx c => rfl
    | rule cs c => cases h : simple cs <;> simp [addSem, h]

/-- The colour of a type which no rule may set is the default. -/
theorem typeColor_default {d : Ty → Option Text} {l : List Item} {t : Ty} (h : ∀ cs c, Item.rule cs c ∈ l → simple cs ≠ some t) :
    Spec.typeColor d l t = d t := by
  rw [typeColor_eq]
  generalize d t = x
  induction l generalizing x with
  | nil => rfl
  | cons i l ih =>
    rw [List.foldl_cons, ih (fun cs c hm => h cs c (List.mem_cons_of_mem _ hm))]
    cases i with
    | pfx c => rfl
    | rule cs c => exact if_neg (h cs c List.mem_cons_self)

theorem simple_mem {cs : List Cond} {t : Ty} (h : simple cs = some t) : active cs = [(false, t)] ∧ pats cs = [] := by
  unfold simple at h
  split at h
  · rename_i h1 h2; cases h; exact ⟨h1, h2⟩
  · cases h

theorem usable_not {l : List Item} (hu : ∀ i ∈ l, Spec.Usable i) {t : Ty} (ht : t = .mi ∨ t = .orphan ∨ t = .so) :
    ∀ cs c, Item.rule cs c ∈ l → simple cs ≠ some t := by
  intro cs c hm hs
  have := usable_active (hu _ hm) (false, t) (by rw [(simple_mem hs).1]; exact List.mem_cons_self)
  rcases ht with h | h | h
  · exact this.1 h
  · exact this.2.1 h
  · exact this.2.2 h

/-! ### Which rule fits -/

/-- The flags say the same as the types. -/
def Agree (flags : List Flag) (has : Ty → Bool) : Prop :=
  ∀ t f, t ≠ .no → (toInd t).cflag = [f] → (f ∈ flags ↔ has t = true)

theorem fits_iff {e : Env} {flags : List Flag} {has : Ty → Bool} {n : Text} (ha : Agree flags has) {cs : List Cond} {c : Text}
    (hu : Spec.Usable (.rule cs c)) (hs : simple cs = none) :
    (ruleOf cs c).fits e flags n = true ↔ Spec.Fits e.wild has n cs := by
  have hact := usable_active hu
  have hno : ∀ t ∈ active cs, t.2 ≠ .no := hu.2.2 (by rw [hs]; simp)
  unfold Rule.fits Spec.Fits ruleOf
  simp only [Bool.and_eq_true, List.all_eq_true, decide_eq_true_eq, Bool.not_eq_true', decide_eq_false_iff_not,
    List.mem_map, forall_exists_index, and_imp, forall_apply_eq_imp_iff₂, beq_iff_eq]
  constructor
  · rintro ⟨⟨h1, h2⟩, h3⟩
    refine ⟨h3, ?_, ?_⟩
    · intro t ht
      obtain ⟨f, hf⟩ := cflag_ne (hact t ht)
      have hne : active cs ≠ [] := by intro h; rw [h] at ht; cases ht
      rw [if_neg (fun h => hne h.1)] at h1
      cases hn : t.1 with
      | false =>
        exact (ha t.2 f (hno t ht) hf).1 (h1 f (List.mem_flatMap.2 ⟨t, ht, by simp [hn, hf]⟩))
      | true =>
        have := h2 f (List.mem_flatMap.2 ⟨t, ht, by simp [hn, hf]⟩)
        cases hb : has t.2 with
        | false => rfl
        | true => exact absurd ((ha t.2 f (hno t ht) hf).2 hb) this
    · intro he hany
      rw [if_pos ⟨he, hany⟩] at h1
      exact (ha .fi .file (by decide) rfl).1 (h1 .file List.mem_cons_self)
  · rintro ⟨h1, h2, h3⟩
    refine ⟨⟨?_, ?_⟩, h1⟩
    · intro f hf
      split at hf
      · rename_i hc
        rw [List.mem_singleton.1 hf]
        exact (ha .fi .file (by decide) rfl).2 (h3 hc.1 hc.2)
      · obtain ⟨t, ht, hm⟩ := List.mem_flatMap.1 hf
        obtain ⟨f', hf'⟩ := cflag_ne (hact t ht)
        cases hn : t.1 with
        | true => simp [hn] at hm
        | false =>
          simp only [hn, hf', Bool.false_eq_true, if_false, List.mem_singleton] at hm
          rw [hm]
          exact (ha t.2 f' (hno t ht) hf').2 (by rw [h2 t ht, hn]; rfl)
    · intro f hf
      obtain ⟨t, ht, hm⟩ := List.mem_flatMap.1 hf
      obtain ⟨f', hf'⟩ := cflag_ne (hact t ht)
      cases hn : t.1 with
      | false => simp [hn] at hm
      | true =>
        simp only [hn, hf', if_true, List.mem_singleton] at hm
        rw [hm]
        intro hmem
        have := (ha t.2 f' (hno t ht) hf').1 hmem
        rw [h2 t ht, hn] at this
        cases this

theorem first_skip {wild has n} {i : Item} {l : List Item} {c : Text}
    (hi : ∀ cs c, i = .rule cs c → simple cs = none → ¬ Spec.Fits wild has n cs) :
    Spec.First wild has n (i :: l) c ↔ Spec.First wild has n l c := by
  constructor
  · rintro ⟨b, cs, a, h1, h2, h3, h4⟩
    cases b with
    | nil =>
      rw [List.nil_append, List.cons.injEq] at h1
      exact absurd h3 (hi cs c h1.1 h2)
    | cons x b =>
      rw [List.cons_append, List.cons.injEq] at h1
      exact ⟨b, cs, a, h1.2, h2, h3, fun cs' c' hm => h4 cs' c' (List.mem_cons_of_mem _ hm)⟩
  · rintro ⟨b, cs, a, h1, h2, h3, h4⟩
    refine ⟨i :: b, cs, a, by rw [h1]; rfl, h2, h3, ?_⟩
    intro cs' c' hm hs
    rcases List.mem_cons.1 hm with h | h
    · exact hi cs' c' h.symm hs
    · exact h4 cs' c' h hs

theorem find_first {e : Env} {flags : List Flag} {has : Ty → Bool} {n : Text} (ha : Agree flags has) {l : List Item}
    (hu : ∀ i ∈ l, Spec.Usable i) :
    (∃ r, (l.filterMap ruleIn).find? (Rule.fits e flags n) = some r ∧ Spec.First e.wild has n l r.seq) ∨
    ((l.filterMap ruleIn).find? (Rule.fits e flags n) = none ∧ ∀ c, ¬ Spec.First e.wild has n l c) := by
  induction l with
  | nil => right; exact ⟨rfl, by rintro c ⟨b, cs, a, h, _⟩; cases b <;> cases h⟩
  | cons i l ih =>
    have ih := ih (fun i' h => hu i' (List.mem_cons_of_mem _ h))
    have skip : ruleIn i = none ∨ (∃ r, ruleIn i = some r ∧ r.fits e flags n = false) →
        (∀ cs c, i = .rule cs c → simple cs = none → ¬ Spec.Fits e.wild has n cs) →
        (∃ r, ((i :: l).filterMap ruleIn).find? (Rule.fits e flags n) = some r ∧ Spec.First e.wild has n (i :: l) r.seq) ∨
        (((i :: l).filterMap ruleIn).find? (Rule.fits e flags n) = none ∧ ∀ c, ¬ Spec.First e.wild has n (i :: l) c) := by
      intro h hi
      have hf : ((i :: l).filterMap ruleIn).find? (Rule.fits e flags n) = (l.filterMap ruleIn).find? (Rule.fits e flags n) := by
        rcases h with h | ⟨r, h, hr⟩
        · rw [List.filterMap_cons_none h]
        · rw [List.filterMap_cons_some h, List.find?_cons_of_neg (by rw [hr]; decide)]
      rw [hf]
      rcases ih with ⟨r, h1, h2⟩ | ⟨h1, h2⟩
      · exact .inl ⟨r, h1, (first_skip hi).2 h2⟩
      · exact .inr ⟨h1, fun c hc => h2 c ((first_skip hi).1 hc)⟩
    cases i with
    | pfx c => exact skip (.inl rfl) (by intro cs c h; cases h)
    | rule cs c =>
      by_cases hs : simple cs = none
      · have hr : ruleIn (.rule cs c) = some (ruleOf cs c) := if_pos hs
        have hfi := fits_iff (e := e) (n := n) ha (hu _ List.mem_cons_self) hs
        cases hb : (ruleOf cs c).fits e flags n with
        | true =>
          left
          refine ⟨ruleOf cs c, ?_, [], cs, l, rfl, hs, hfi.1 hb, by intro _ _ h; cases h⟩
          rw [List.filterMap_cons_some hr, List.find?_cons_of_pos hb]
        | false =>
          refine skip (.inr ⟨_, hr, hb⟩) ?_
          intro cs' c' h _ hf
          cases h
          rw [hfi.2 hf] at hb
          cases hb
      · refine skip (.inl (if_neg hs)) ?_
        intro cs' c' h h'
        cases h
        exact absurd h' hs

theorem first_unique {wild has n} {l : List Item} : ∀ {a b : Text}, Spec.First wild has n l a → Spec.First wild has n l b → a = b := by
  induction l with
  | nil => rintro a b ⟨x, cs, y, h, _⟩; cases x <;> cases h
  | cons i l ih =>
    intro a b ha hb
    by_cases hi : ∀ cs c, i = .rule cs c → simple cs = none → ¬ Spec.Fits wild has n cs
    · exact ih ((first_skip hi).1 ha) ((first_skip hi).1 hb)
    · obtain ⟨cs, c, rfl, hs, hf⟩ : ∃ cs c, i = .rule cs c ∧ simple cs = none ∧ Spec.Fits wild has n cs := by
        apply Classical.byContradiction
        intro h
        exact hi (fun cs c h1 h2 h3 => h ⟨cs, c, h1, h2, h3⟩)
      have key : ∀ {x}, Spec.First wild has n (.rule cs c :: l) x → x = c := by
        rintro x ⟨bf, cs', af, h1, h2, h3, h4⟩
        cases bf with
        | nil => rw [List.nil_append, List.cons.injEq] at h1; cases h1.1; rfl
        | cons y bf =>
          rw [List.cons_append, List.cons.injEq] at h1
          exact absurd hf (h4 cs c (by rw [h1.1]; exact List.mem_cons_self) hs)
      rw [key ha, key hb]

/-! ### What a match is -/

theorem isTarget_eq (c : Option Text) : isTarget c = Spec.targetColor c := by
  cases c with
  | none => rfl
  | some s =>
    unfold isTarget Spec.targetColor iequals
    rw [map_lower_eq]
    rfl

/-- The entry meant by a match which is a file or directory. -/
def entryOf (e : Env) (t : MType) (name : Text) : Spec.Entry :=
  ⟨t.kind == .dir, t.kind != .dir && e.isExec name, t.link, t.orphaned, t.hidden, t.readonly⟩

theorem classify_path {e : Env} {colors : Colors} {t : MType} {name : Text} (ht : t.kind = .file ∨ t.kind = .dir)
    (hm : colors .mi = none) (ho : colors .orp = none) :
    Agree (classify e colors t name).1 (Spec.has (Spec.targetColor (colors .ln)) (entryOf e t name)) ∧
    (classify e colors t name).2 = toInd (Spec.shown (Spec.targetColor (colors .ln)) (entryOf e t name)) ∧
    (Flag.dir ∈ (classify e colors t name).1 ↔ Spec.look (Spec.targetColor (colors .ln)) (entryOf e t name) = .dir) := by
  obtain ⟨k, ln, orph, hid, ro, oth⟩ := t
  have hz : (MType.isZero ⟨k, ln, orph, hid, ro, oth⟩) = false := by
    rcases ht with h | h <;> simp only at h <;> subst h <;> rfl
  have hp : (MType.pathish ⟨k, ln, orph, hid, ro, oth⟩) = true := by
    rcases ht with h | h <;> simp only at h <;> subst h <;> rfl
  unfold classify statFromType entryOf
  simp only [hz, hp, hm, ho, isTarget_eq, Bool.false_eq_true, if_false]
  generalize Spec.targetColor (colors .ln) = tg
  generalize e.isExec name = ex
  unfold Agree
  rcases ht with h | h <;> simp only at h <;> subst h <;> cases ln <;> cases orph <;> cases hid <;> cases ro <;> cases tg <;> cases ex <;>
    (refine ⟨?_, by decide, by decide⟩; intro t f hn hf; cases t <;> cases hf <;> first | exact absurd rfl hn | decide)

theorem classify_word {e : Env} {colors : Colors} {t : MType} {name : Text} (ht : t.kind = .word ∨ t.kind = .arg ∨ t.kind = .none)
    (hm : colors .mi = none) (ho : colors .orp = none) : classify e colors t name = ([], .no) := by
  obtain ⟨k, ln, orph, hid, ro, oth⟩ := t
  have hz : (MType.isZero ⟨k, ln, orph, hid, ro, oth⟩) = false := by
    rcases ht with h | h | h <;> simp only at h <;> subst h <;> rfl
  have hp : (MType.pathish ⟨k, ln, orph, hid, ro, oth⟩) = false := by
    rcases ht with h | h | h <;> simp only at h <;> subst h <;> rfl
  unfold classify
  simp [hz, hp, hm, ho]

theorem isSep_eq : Spec.isSep = StrCompare.isSep := by
  funext c; simp [Spec.isSep, StrCompare.isSep, Bool.or_comm]

theorem patName_name (e : Env) (flags : List Flag) (name : Text) :
    Spec.NameOf (e.pastDrive (if Flag.dir ∈ flags then stripSeps name else name)) (patName e flags name) := by
  unfold patName getName
  generalize e.pastDrive (if Flag.dir ∈ flags then stripSeps name else name) = p
  constructor
  · intro c hc
    rw [List.mem_reverse] at hc
    have hq : ∀ (q : Text), c ∈ q.takeWhile (fun c => !StrCompare.isSep c) → StrCompare.isSep c = false := by
      intro q hq
      induction q with
      | nil => cases hq
      | cons x q ih =>
        rw [List.takeWhile_cons] at hq
        split at hq
        · rename_i hx
          rcases List.mem_cons.1 hq with h | h
          · subst h; simpa using hx
          · exact ih h
        · cases hq
    rw [isSep_eq]
    exact hq _ hc
  · have hsplit := List.takeWhile_append_dropWhile (p := fun c => !StrCompare.isSep c) (l := p.reverse)
    have hp : p = (p.reverse.dropWhile (fun c => !StrCompare.isSep c)).reverse ++
        (p.reverse.takeWhile (fun c => !StrCompare.isSep c)).reverse := by
      rw [← List.reverse_append, hsplit, List.reverse_reverse]
    cases hd : p.reverse.dropWhile (fun c => !StrCompare.isSep c) with
    | nil => left; rw [hd] at hp; exact hp
    | cons x d =>
      right
      have hx : StrCompare.isSep x = true := by
        have hne : p.reverse.dropWhile (fun c => !StrCompare.isSep c) ≠ [] := by rw [hd]; simp
        have hnot := List.head_dropWhile_not (fun c => !StrCompare.isSep c) hne
        have hh : (p.reverse.dropWhile (fun c => !StrCompare.isSep c)).head hne = x := by simp only [hd, List.head_cons]
        rw [hh] at hnot
        simpa using hnot
      rw [hd] at hp
      exact ⟨d.reverse, x, by rw [isSep_eq]; exact hx, hp.trans (by simp)⟩

theorem makeColor_eq (colors : Colors) (c : Text) : makeColor colors c = Spec.code (colors .no) c := by
  unfold makeColor
  cases h : colors .no with
  | none => rfl
  | some s =>
    unfold isColored Spec.code
    by_cases h1 : s = []
    · subst h1; rfl
    by_cases h2 : s = [48]
    · subst h2; rfl
    by_cases h3 : s = [48, 48]
    · subst h3; rfl
    have e2 : s ≠ Spec.bs "0" := fun h => h2 (h.trans (by decide +kernel))
    have e3 : s ≠ Spec.bs "00" := fun h => h3 (h.trans (by decide +kernel))
    simp only [h1, e2, e3, or_self, if_false]
    have : (s == [] || s == [48] || s == [48, 48]) = false := by simp [h1, h2, h3]
    simp only [this, Bool.not_false, if_true]
    have hb : Spec.bs "\x1b[m" = [27, 91, 109] := by decide +kernel
    rw [hb]
    rfl

end Clink.MatchColors
