import Verif.Spec.MatchWild
import Verif.Proof.StrCompare
namespace Clink.MatchWild
open Clink.StrCompare

/-! ### Characters -/

theorem matchChar_iff (a : Args) (c d : Nat) : matchChar a c d = true ↔ Eqv a c d := same_iff _ _ _ _

theorem canon_sep {lower : Nat → Nat} (hok : LowerOk lower) (m : Mode) (hm : m.exactSlash = false) (c : Nat) :
    canon lower m c = 47 ↔ isSep c = true := by
  rw [canon_eq]
  have hf : fold lower m c = 47 ↔ isSep c = true := by
    unfold fold isSep
    rw [hm]
    have a := hok.slash c
    have b := hok.back c
    simp only [Bool.false_eq_true, if_false, beq_iff_eq, Bool.or_eq_true]
    by_cases h1 : m.mode > 0 <;> by_cases h2 : m.mode > 1 <;> by_cases h3 : c > 0xffff <;>
      simp only [h1, h2, h3, if_true, if_false] <;> (repeat' split) <;> omega
  cases m.fuzzy
  · simpa using hf
  · simp only [if_true, unaccent_slash]; exact hf

theorem eqv_sep {a : Args} (hok : LowerOk a.lower) {c d : Nat} (h : Eqv a c d) : isSep c = isSep d := by
  have h1 := canon_sep hok ⟨a.mode, a.fuzzy, false⟩ rfl c
  have h2 := canon_sep hok ⟨a.mode, a.fuzzy, false⟩ rfl d
  unfold Eqv at h
  rw [h] at h1
  cases hc : isSep c <;> cases hd : isSep d <;> simp_all

theorem sep_eqv {a : Args} (hok : LowerOk a.lower) {c d : Nat} (hc : isSep c = true) (hd : isSep d = true) :
    Eqv a c d := by
  unfold Eqv
  rw [(canon_sep hok _ rfl c).2 hc, (canon_sep hok _ rfl d).2 hd]

theorem table_dot : ∀ e ∈ accentTable.toList, e.2 ≠ 46 := by decide +kernel

theorem unaccent_dot (c : Nat) : unaccent c = 46 ↔ c = 46 := by
  constructor
  · intro h
    rcases unaccent_cases c with e | ⟨e, he, h1, h2⟩
    · rw [← e]; exact h
    · have := table_dot e he; omega
  · intro h
    rcases unaccent_cases c with e | ⟨e, he, h1, h2⟩
    · rw [e]; exact h
    · have := (table_vals e he).2.2.2.2.2.2; omega

theorem eqv_dot {a : Args} (hok : CharsOk a.lower) {c : Nat} (h : Eqv a c 46) : c = 46 := by
  have hd : ∀ c, canon a.lower ⟨a.mode, a.fuzzy, false⟩ c = 46 ↔ c = 46 := by
    intro c
    rw [canon_eq]
    have hf : fold a.lower ⟨a.mode, a.fuzzy, false⟩ c = 46 ↔ c = 46 := by
      unfold fold
      have h1 := hok.dot c
      simp only [Bool.false_eq_true, if_false]
      by_cases h1 : a.mode > 0 <;> by_cases h2 : a.mode > 1 <;> by_cases h3 : c > 0xffff <;>
        simp only [h1, h2, h3, if_true, if_false] <;> (repeat' split) <;> omega
    by_cases hz : a.fuzzy = true
    · simp only [hz, if_true, unaccent_dot]; rw [hz] at hf; exact hf
    · simp only [hz]; simpa [hz] using hf
  unfold Eqv at h
  rw [(hd 46).2 rfl] at h
  exact (hd c).1 h

theorem wild_not_sep {c : Nat} (h : wild c = true) : isSep c = false := by
  unfold wild at h; unfold isSep
  simp only [Bool.or_eq_true, beq_iff_eq] at h
  rcases h with rfl | rfl <;> decide

theorem sep_not_wild {c : Nat} (h : isSep c = true) : wild c = false := by
  cases hw : wild c
  · rfl
  · rw [wild_not_sep hw] at h; simp at h

theorem not_wild {c : Nat} (h1 : c ≠ 63) (h2 : c ≠ 42) : wild c = false := by
  unfold wild; simp [h1, h2]

theorem takeWhile_all {q : Nat → Bool} {l : List Nat} : ∀ c ∈ l.takeWhile q, q c = true :=
  fun c hc => List.all_eq_true.1 List.all_takeWhile c hc

theorem dropWhile_head {q : Nat → Bool} {l m : List Nat} {c : Nat} (h : l.dropWhile q = c :: m) : q c = false := by
  have := List.head?_dropWhile_not q l
  rw [h] at this
  simpa using this

theorem dropWhile_nil {q : Nat → Bool} {l : List Nat} (h : l.dropWhile q = []) : ∀ c ∈ l, q c = true := by
  have := List.takeWhile_append_dropWhile (p := q) (l := l)
  rw [h, List.append_nil] at this
  rw [← this]
  exact takeWhile_all

theorem dropWhile_all {q : Nat → Bool} {l : List Nat} (h : ∀ c ∈ l, q c = true) : l.dropWhile q = [] := by
  have := List.dropWhile_append_of_pos (l₂ := []) h
  simpa using this

theorem dropWhile_none {q : Nat → Bool} {l : List Nat} (h : ∀ c m, l = c :: m → q c = false) : l.dropWhile q = l := by
  cases l with
  | nil => rfl
  | cons c m => rw [List.dropWhile_cons_of_neg (by rw [h c m rfl]; simp)]

theorem suffix_eq_of_length {l m x : List Nat} (h1 : l <:+ x) (h2 : m <:+ x) (h : l.length = m.length) : l = m := by
  obtain ⟨p, rfl⟩ := h1
  obtain ⟨q, h2⟩ := h2
  exact ((List.append_inj' h2 h.symm).2).symm

/-! ### Last components -/

theorem afterLastSep_spec (best l : List Nat) :
    ((∀ c ∈ l, isSep c = false) → afterLastSep best l = best) ∧
    ((∃ c ∈ l, isSep c = true) → (∀ c ∈ afterLastSep best l, isSep c = false) ∧
      ∃ pre s, isSep s = true ∧ l = pre ++ s :: afterLastSep best l) := by
  induction l generalizing best with
  | nil => exact ⟨fun _ => rfl, fun ⟨c, hc, _⟩ => by simp at hc⟩
  | cons c l ih =>
    rw [afterLastSep]
    by_cases hl : ∃ x ∈ l, isSep x = true
    · obtain ⟨h1, pre, s, h2, h3⟩ := (ih (if isSep c then l else best)).2 hl
      refine ⟨fun h => ?_, fun _ => ⟨h1, c :: pre, s, h2, by rw [List.cons_append, ← h3]⟩⟩
      obtain ⟨x, hx, hs⟩ := hl
      rw [h x (by simp [hx])] at hs; simp at hs
    · have hl' : ∀ x ∈ l, isSep x = false := by
        intro x hx
        cases hs : isSep x
        · rfl
        · exact absurd ⟨x, hx, hs⟩ hl
      rw [(ih _).1 hl']
      cases hc : isSep c
      · refine ⟨fun _ => by simp, fun ⟨x, hx, hs⟩ => ?_⟩
        rcases List.mem_cons.1 hx with rfl | hx
        · rw [hc] at hs; simp at hs
        · rw [hl' x hx] at hs; simp at hs
      · refine ⟨fun h => ?_, fun _ => ?_⟩
        · have := h c (by simp); rw [hc] at this; simp at this
        · simp only [if_true]
          exact ⟨hl', [], c, hc, rfl⟩

theorem lastComp_after (l : List Nat) : LastComp l (afterLastSep l l) := by
  by_cases hl : ∃ x ∈ l, isSep x = true
  · obtain ⟨h1, h2⟩ := (afterLastSep_spec l l).2 hl
    exact ⟨h1, .inr h2⟩
  · have hl' : ∀ x ∈ l, isSep x = false := by
      intro x hx
      cases hs : isSep x
      · rfl
      · exact absurd ⟨x, hx, hs⟩ hl
    rw [LastComp, (afterLastSep_spec l l).1 hl']
    exact ⟨hl', .inl rfl⟩

theorem LastComp.suffix {l q : List Nat} (h : LastComp l q) : q <:+ l := by
  obtain ⟨-, rfl | ⟨pre, s, -, rfl⟩⟩ := h
  · exact List.suffix_refl _
  · exact ⟨pre ++ [s], by simp⟩

theorem LastComp.unique {l q q' : List Nat} (h : LastComp l q) (h' : LastComp l q') : q = q' := by
  have key : ∀ q q', LastComp l q → LastComp l q' → q.length ≤ q'.length := by
    intro q q' h h'
    apply Nat.le_of_not_lt
    intro hlt
    have hs := h.suffix
    obtain ⟨hn, -⟩ := h
    obtain ⟨-, rfl | ⟨pre, s, hsep, e⟩⟩ := h'
    · have := hs.length_le; omega
    · have h2 : s :: q' <:+ q := by
        have h3 : s :: q' <:+ l := ⟨pre, e.symm⟩
        exact List.suffix_of_suffix_length_le h3 hs (by simp; omega)
      have := hn s (h2.subset (by simp))
      rw [this] at hsep; simp at hsep
  exact suffix_eq_of_length h.suffix h'.suffix (Nat.le_antisymm (key _ _ h h') (key _ _ h' h))

theorem finalWild_spec (acc : Bool) (best l : List Nat) :
    ((∀ c ∈ l, isSep c = false) → finalWild acc l = (acc || l.any wild)) ∧
    ((∃ c ∈ l, isSep c = true) → finalWild acc l = (afterLastSep best l).any wild) := by
  induction l generalizing acc best with
  | nil => exact ⟨fun _ => by simp [finalWild], fun ⟨c, hc, _⟩ => by simp at hc⟩
  | cons c l ih =>
    rw [finalWild, afterLastSep]
    constructor
    · intro h
      have hc := h c (by simp)
      rw [hc]
      simp only [Bool.false_eq_true, if_false]
      rw [(ih _ best).1 (fun x hx => h x (by simp [hx]))]
      cases hw : wild c <;> simp [hw]
    · intro h
      by_cases hl : ∃ x ∈ l, isSep x = true
      · exact (ih _ _).2 hl
      · have hl' : ∀ x ∈ l, isSep x = false := by
          intro x hx
          cases hs : isSep x
          · rfl
          · exact absurd ⟨x, hx, hs⟩ hl
        have hc : isSep c = true := by
          obtain ⟨x, hx, hs⟩ := h
          rcases List.mem_cons.1 hx with rfl | hx
          · exact hs
          · rw [hl' x hx] at hs; simp at hs
        rw [(ih _ best).1 hl', (afterLastSep_spec _ l).1 hl', hc]
        simp

theorem finalWild_iff (l q : List Nat) (h : LastComp l q) : finalWild false l = true ↔ ∃ x ∈ q, wild x = true := by
  have hq := h.unique (lastComp_after l)
  subst hq
  by_cases hl : ∃ x ∈ l, isSep x = true
  · rw [(finalWild_spec false l l).2 hl, List.any_eq_true]
  · have hl' : ∀ x ∈ l, isSep x = false := by
      intro x hx
      cases hs : isSep x
      · rfl
      · exact absurd ⟨x, hx, hs⟩ hl
    rw [(finalWild_spec false l l).1 hl', (afterLastSep_spec l l).1 hl']
    simp

/-- A position right after a wildcard is not the start of the last component. -/
theorem after_wild_not_last {l q : List Nat} {w : Nat} (h : w :: q <:+ l) (hw : wild w = true) : ¬ LastComp l q := by
  rintro ⟨-, rfl | ⟨pre, s, hs, e⟩⟩
  · have := h.length_le; simp only [List.length_cons] at this; omega
  · have h3 : s :: q <:+ l := ⟨pre, e.symm⟩
    have := suffix_eq_of_length h h3 (by simp)
    simp only [List.cons.injEq, and_true] at this
    subst this
    rw [wild_not_sep hw] at hs; simp at hs

/-! ### Dots -/

/-- The condition under which the code passes over leading dots. -/
theorem skipDots_cases (a : Args) (c : Nat) (p f : List Nat) (hp : c :: p <:+ a.pattern) (hf : f <:+ a.file)
    (hc : wild c = false) :
    (skipDots a c p f = f ∧ ¬ (a.dot = true ∧ c ≠ 46 ∧ LastComp a.pattern (c :: p) ∧ LastComp a.file f ∧
      (∃ x ∈ p, wild x = true) ∧ ∃ f', f = 46 :: f')) ∨
    (skipDots a c p f = f.dropWhile (· == 46) ∧ a.dot = true ∧ c ≠ 46 ∧ LastComp a.pattern (c :: p) ∧
      LastComp a.file f ∧ (∃ x ∈ p, wild x = true)) := by
  unfold skipDots
  cases f with
  | nil => exact .inl ⟨rfl, by rintro ⟨-, -, -, -, -, f', h⟩; simp at h⟩
  | cons d f =>
    simp only
    split
    · rename_i h
      simp only [Bool.and_eq_true, beq_iff_eq, decide_eq_true_eq, bne_iff_ne, ne_eq] at h
      obtain ⟨⟨⟨⟨⟨h1, h2⟩, h3⟩, h4⟩, h5⟩, h6⟩ := h
      have e1 := suffix_eq_of_length hf (lastComp_after a.file).suffix h4
      have e2 := suffix_eq_of_length hp (lastComp_after a.pattern).suffix h5
      have l1 := lastComp_after a.file
      have l2 := lastComp_after a.pattern
      rw [← e1] at l1; rw [← e2] at l2
      refine .inr ⟨rfl, h1, h6, l2, l1, ?_⟩
      obtain ⟨x, hx, hw⟩ := (finalWild_iff _ _ l2).1 h3
      rcases List.mem_cons.1 hx with rfl | hx
      · rw [hc] at hw; simp at hw
      · exact ⟨x, hx, hw⟩
    · rename_i h
      refine .inl ⟨rfl, ?_⟩
      rintro ⟨h1, h6, l2, l1, ⟨x, hx, hw⟩, f', e⟩
      apply h
      simp only [List.cons.injEq] at e
      rw [(finalWild_iff _ _ l2).2 ⟨x, by simp [hx], hw⟩, ← l1.unique (lastComp_after _), ← l2.unique (lastComp_after _)]
      simp [h1, h6, e.1]

theorem dropDots_eq (f : List Nat) : ∃ t, (∀ x ∈ t, x = 46) ∧ f = t ++ f.dropWhile (· == 46) :=
  ⟨f.takeWhile (· == 46), fun x hx => by simpa using takeWhile_all x hx, (List.takeWhile_append_dropWhile).symm⟩

/-! ### Soundness -/

theorem star_absorb {a : Args} {p f : List Nat} {d : Nat} (h : Inst a (42 :: p) f)
    (hd : a.me = .yes ∨ isSep d = false) : Inst a (42 :: p) (d :: f) := by
  generalize hq : 42 :: p = q at h
  cases h with
  | nil => simp at hq
  | one => simp at hq
  | missing => simp at hq
  | star hw hr h' =>
    rename_i w p0 r f0
    rw [← List.cons_append]
    refine .star hw ?_ h'
    rcases hr with hr | hr
    · exact .inl hr
    · rcases hd with hd | hd
      · exact .inl hd
      · refine .inr (fun c hc => ?_)
        rcases List.mem_cons.1 hc with rfl | hc
        · exact hd
        · exact hr c hc
  | all hw hm => exact .all hw hm
  | sep hc => 
    simp only [List.cons_append, List.cons.injEq] at hq
    rw [← hq.1] at hc; simp [isSep] at hc
  | lit hc =>
    simp only [List.cons.injEq] at hq
    rw [← hq.1] at hc; simp [wild] at hc
  | dots _ hc =>
    simp only [List.cons.injEq] at hq
    rw [← hq.1] at hc; simp [wild] at hc

theorem star_absorbs {a : Args} {p f r : List Nat} (h : Inst a (42 :: p) f)
    (hd : StarRun a r) : Inst a (42 :: p) (r ++ f) := by
  induction r with
  | nil => exact h
  | cons d r ih =>
    refine star_absorb (ih ?_) ?_
    · rcases hd with hd | hd
      · exact .inl hd
      · exact .inr (fun c hc => hd c (by simp [hc]))
    · rcases hd with hd | hd
      · exact .inl hd
      · exact .inr (hd d (by simp))

/-- What a successful round means. -/
def Sound (a : Args) (p f : List Nat) : Res → Prop
  | .done true => Inst a p f
  | .done false => True
  | .fail => True
  | .go p' f' => p' <:+ p ∧ f' <:+ f ∧ (Inst a p' f' → Inst a p f)
  | .goClear p' f' => p' <:+ p ∧ f' <:+ f ∧ (Inst a p' f' → Inst a p f)
  | .goPush p' f' e => p' <:+ p ∧ f' <:+ f ∧ e.1 = p ∧ e.2 = f' ∧ (Inst a p' f' ∨ Inst a e.1 e.2 → Inst a p f)

theorem step_sound (a : Args) (hok : LowerOk a.lower) (n : Nat) (p f : List Nat) (hp : p <:+ a.pattern)
    (hf : f <:+ a.file) : Sound a p f (step a n p f) := by
  unfold step
  split
  · split
    · rename_i h; subst h; exact .nil
    · trivial
  · rename_i c p
    split
    · rename_i hc; subst hc
      split
      · exact ⟨List.suffix_cons _ _, List.suffix_refl _, .missing⟩
      · rename_i d f
        split
        · trivial
        · rename_i hd
          exact ⟨List.suffix_cons _ _, List.suffix_cons _ _, .one (by simpa using hd)⟩
    · rename_i hq
      split
      · rename_i hc; subst hc
        split
        · rename_i hp'
          have hw := dropWhile_nil hp'
          split
          · rename_i hm; exact .all hw hm
          · split
            · rename_i hn
              have hr := dropWhile_nil hn
              have : Inst a (42 :: p ++ []) (f ++ []) := .star hw (.inr (fun c hc => by simpa using hr c hc)) .nil
              simp only [List.append_nil] at this
              by_cases hn10 : n ≠ 10 <;> simp [hn10, Sound, this]
            · trivial
        · rename_i c' p' hp'
          split
          · trivial
          · rename_i d f' hf'
            have hpe : p = p.takeWhile wild ++ c' :: p' := by
              rw [← hp']; exact (List.takeWhile_append_dropWhile).symm
            have hsp : p' <:+ p := ⟨p.takeWhile wild ++ [c'], by rw [List.append_assoc]; exact hpe.symm⟩
            have hwild : wild c' = false := dropWhile_head hp'
            generalize hQ : (fun d => (decide (a.me = .yes) || !isSep d) && !matchChar a d c') = Q at hf'
            have hfe : f = f.takeWhile Q ++ d :: f' := by
              rw [← hf']; exact (List.takeWhile_append_dropWhile).symm
            have hsf : f' <:+ f := ⟨f.takeWhile Q ++ [d], by rw [List.append_assoc]; exact hfe.symm⟩
            have hrun : StarRun a (f.takeWhile Q) := by
              by_cases hy : a.me = .yes
              · exact .inl hy
              · refine .inr (fun x hx => ?_)
                have := takeWhile_all x hx
                rw [← hQ] at this
                simp [hy] at this
                exact this.1
            split
            · rename_i hm
              have he := (matchChar_iff a d c').1 hm
              have hcur : Inst a p' f' → Inst a (42 :: p) f := by
                intro h
                have h1 : Inst a (c' :: p') (d :: f') := by
                  cases hs : isSep c'
                  · exact .lit hwild hs he.symm h
                  · have := Inst.sep (a := a) (s := []) (t := []) hs (eqv_sep hok he ▸ hs) (by simp) (by simp) h
                    simpa using this
                have h2 := Inst.star (a := a) (w := p.takeWhile wild) takeWhile_all hrun h1
                rw [List.cons_append, ← hpe, ← hfe] at h2
                exact h2
              split
              · exact ⟨hsp.trans (List.suffix_cons _ _), hsf, hcur⟩
              · rename_i hns
                split
                · trivial
                · refine ⟨hsp.trans (List.suffix_cons _ _), hsf, rfl, rfl, ?_⟩
                  rintro (h | h)
                  · exact hcur h
                  · have hd : a.me = .yes ∨ isSep d = false := by
                      by_cases hy : a.me = .yes
                      · exact .inl hy
                      · right; simpa [hy] using hns
                    have := star_absorbs (star_absorb h hd) hrun
                    rw [← hfe] at this
                    exact this
            · trivial
      · rename_i hs
        have hwild := not_wild hq hs
        have hcases := skipDots_cases a c p f hp hf hwild
        split
        · trivial
        · rename_i d f' hsk
          split
          · rename_i hm
            have he := (matchChar_iff a d c).1 hm
            have hsfx : d :: f' <:+ f := by
              rw [← hsk]
              rcases hcases with ⟨e, -⟩ | ⟨e, -⟩ <;> rw [e]
              · exact List.suffix_refl _
              · exact List.dropWhile_suffix _
            have hlift : Inst a (c :: p) (d :: f') → Inst a (c :: p) f := by
              intro h
              rcases hcases with ⟨e, -⟩ | ⟨e, h1, h2, h3, h4, h5⟩
              · rw [← e, hsk]; exact h
              · obtain ⟨t, ht, hft⟩ := dropDots_eq f
                rw [← e, hsk] at hft
                have := Inst.dots (a := a) h1 hwild h2 h3 (hft ▸ h4) h5 ht h
                rw [← hft] at this; exact this
            split
            · rename_i hsep
              refine ⟨(List.dropWhile_suffix _).trans (List.suffix_cons _ _),
                (List.dropWhile_suffix _).trans ((List.suffix_cons _ _).trans hsfx), fun h => hlift ?_⟩
              have := Inst.sep (a := a) (s := p.takeWhile isSep) (t := f'.takeWhile isSep) hsep
                (eqv_sep hok he ▸ hsep) takeWhile_all takeWhile_all h
              simpa [List.takeWhile_append_dropWhile] using this
            · rename_i hsep
              exact ⟨List.suffix_cons _ _, (List.suffix_cons _ _).trans hsfx,
                fun h => hlift (.lit hwild (by simpa using hsep) he.symm h)⟩
          · trivial

theorem run_sound (a : Args) (hok : LowerOk a.lower) (p f : List Nat) (stk : List Entry) (hp : p <:+ a.pattern)
    (hf : f <:+ a.file) (hs : ∀ e ∈ stk, e.1 <:+ a.pattern ∧ e.2 <:+ a.file) (h : run a p f stk = true) :
    Inst a p f ∨ ∃ e ∈ stk, Inst a e.1 e.2 := by
  fun_induction run a p f stk with
  | case1 p f stk b hst =>
    have := step_sound a hok stk.length p f hp hf
    rw [hst] at this
    subst h
    exact .inl this
  | case2 p f stk p' f' hst ih =>
    have := step_sound a hok stk.length p f hp hf
    rw [hst] at this
    obtain ⟨x, y, z⟩ := this
    rcases ih (x.trans hp) (y.trans hf) hs h with h | h
    · exact .inl (z h)
    · exact .inr h
  | case3 p f stk p' f' hst ih =>
    have := step_sound a hok stk.length p f hp hf
    rw [hst] at this
    obtain ⟨x, y, z⟩ := this
    rcases ih (x.trans hp) (y.trans hf) (by simp) h with h | ⟨e, he, -⟩
    · exact .inl (z h)
    · simp at he
  | case4 p f stk p' f' e hst ih =>
    have := step_sound a hok stk.length p f hp hf
    rw [hst] at this
    obtain ⟨x, y, e1, e2, z⟩ := this
    rcases ih (x.trans hp) (y.trans hf) (by
        intro e' he'
        rcases List.mem_cons.1 he' with rfl | he'
        · rw [e1, e2]; exact ⟨hp, y.trans hf⟩
        · exact hs e' he') h with h2 | ⟨e', he', h2⟩
    · exact .inl (z (.inl h2))
    · rcases List.mem_cons.1 he' with he' | he'
      · rw [he'] at h2; exact .inl (z (.inr h2))
      · exact .inr ⟨e', he', h2⟩
  | case5 p f hst => simp at h
  | case6 p f e s hst ih =>
    rcases ih (hs e (by simp)).1 (hs e (by simp)).2 (fun e' he' => hs e' (by simp [he'])) h with h | ⟨e', he', h⟩
    · exact .inr ⟨e, by simp, h⟩
    · exact .inr ⟨e', by simp [he'], h⟩

/-! ### Completeness -/

theorem NoAdj.tail {c : Nat} {l : List Nat} (h : NoAdj (c :: l)) : NoAdj l := by
  cases l with
  | nil => trivial
  | cons d l => exact h.2

theorem NoAdj.suffix {l m : List Nat} (h : NoAdj l) (hs : m <:+ l) : NoAdj m := by
  induction l with
  | nil => rw [List.suffix_nil.1 hs]; trivial
  | cons c l ih =>
    rcases List.suffix_cons_iff.1 hs with rfl | hs
    · exact h
    · exact ih h.tail hs

theorem NoAdj.next {c d : Nat} {l : List Nat} (h : NoAdj (c :: d :: l)) (hc : isSep c = true) : isSep d = false := by
  cases hd : isSep d
  · rfl
  · exact absurd ⟨hc, hd⟩ h.1

theorem NoAdj.drop {c : Nat} {l : List Nat} (h : NoAdj (c :: l)) (hc : isSep c = true) : l.dropWhile isSep = l :=
  dropWhile_none (fun d m e => by subst e; exact h.next hc)

theorem NoAdj.nil_of_seps {c : Nat} {s l : List Nat} (h : NoAdj (c :: s ++ l)) (hc : isSep c = true)
    (hs : ∀ x ∈ s, isSep x = true) : s = [] := by
  cases s with
  | nil => rfl
  | cons d s =>
    have := h.next hc
    rw [hs d (by simp)] at this; simp at this

/-- Number of separators. -/
def seps (l : List Nat) : Nat := l.countP isSep

theorem seps_cons (c : Nat) (l : List Nat) : seps (c :: l) = seps l + (if isSep c = true then 1 else 0) :=
  List.countP_cons ..
theorem seps_append (l m : List Nat) : seps (l ++ m) = seps l + seps m := List.countP_append
theorem seps_zero {l : List Nat} (h : ∀ c ∈ l, isSep c = false) : seps l = 0 := by
  rw [seps, List.countP_eq_zero]
  intro c hc; rw [h c hc]; simp
theorem seps_wild {l : List Nat} (h : ∀ c ∈ l, wild c = true) : seps l = 0 :=
  seps_zero (fun c hc => wild_not_sep (h c hc))
theorem seps_suffix {l m : List Nat} (h : l <:+ m) : seps l ≤ seps m := h.sublist.countP_le

/-- What follows the separator after which exactly `r` separators remain. -/
def cut (r : Nat) : List Nat → Option (List Nat)
  | [] => none
  | c :: l => if isSep c = true ∧ seps l = r then some l else cut r l

theorem cut_none {r : Nat} {l : List Nat} (h : seps l ≤ r) : cut r l = none := by
  induction l with
  | nil => rfl
  | cons c l ih =>
    rw [seps_cons] at h
    rw [cut, if_neg, ih (by omega)]
    rintro ⟨hc, e⟩
    rw [if_pos hc] at h; omega

theorem cut_append {r : Nat} {s l : List Nat} (h : ∀ c ∈ s, isSep c = false) : cut r (s ++ l) = cut r l := by
  induction s with
  | nil => rfl
  | cons c s ih =>
    rw [List.cons_append, cut, if_neg (by rw [h c (by simp)]; simp), ih (fun x hx => h x (by simp [hx]))]

theorem cut_suffix {r : Nat} {l m : List Nat} (hs : l <:+ m) (h : r < seps l) : cut r m = cut r l := by
  induction m with
  | nil => rw [List.suffix_nil.1 hs]
  | cons c m ih =>
    rcases List.suffix_cons_iff.1 hs with rfl | hs
    · rfl
    · have := seps_suffix hs
      rw [cut, if_neg (by omega), ih hs]

/-- Matching lines separators up one to one (unless stars match everything). -/
theorem align {a : Args} (hy : a.me ≠ .yes) (hok : LowerOk a.lower) {p f : List Nat} (h : Inst a p f) (hp : NoAdj p) (hf : NoAdj f)
    {A B r s : Nat} (hb : seps p + B = seps f + A) (hrs : r + B = s + A) {p2 : List Nat} (hc : cut r p = some p2) :
    ∃ f2, cut s f = some f2 ∧ Inst a p2 f2 := by
  induction h with
  | nil => simp [cut] at hc
  | one hd _ ih =>
    rw [seps_cons, seps_cons, hd] at hb
    rw [cut, if_neg (by simp [isSep])] at hc
    rw [cut, if_neg (by rw [hd]; simp)]
    exact ih hp.tail hf.tail (by simpa [isSep] using hb) hc
  | missing _ ih =>
    rw [seps_cons] at hb
    rw [cut, if_neg (by simp [isSep])] at hc
    exact ih hp.tail hf (by simpa [isSep] using hb) hc
  | @star w p r0 f hw hr h ih =>
    have hr : ∀ c ∈ r0, isSep c = false := by
      rcases hr with hr | hr
      · exact absurd hr hy
      · exact hr
    have hw' : ∀ c ∈ 42 :: w, isSep c = false := by
      intro c hc
      rcases List.mem_cons.1 hc with rfl | hc
      · decide
      · exact wild_not_sep (hw c hc)
    rw [seps_append, seps_append, seps_zero hr, seps_zero hw'] at hb
    rw [cut_append hw'] at hc
    rw [cut_append hr]
    exact ih (hp.suffix ⟨_, rfl⟩) (hf.suffix ⟨_, rfl⟩) (by omega) hc
  | all hw hm =>
    rw [cut_none] at hc
    · simp at hc
    · rw [seps_cons, seps_wild hw]; simp [isSep]
  | @sep c s0 p d t f hcs hds hs ht h ih =>
    have := hp.nil_of_seps hcs hs; subst this
    have := hf.nil_of_seps hds ht; subst this
    simp only [List.cons_append, List.nil_append] at *
    rw [seps_cons, seps_cons, if_pos hcs, if_pos hds] at hb
    rw [cut] at hc ⊢
    by_cases e : seps p = r
    · rw [if_pos ⟨hcs, e⟩] at hc
      rw [if_pos ⟨hds, by omega⟩]
      cases hc
      exact ⟨f, rfl, h⟩
    · rw [if_neg (fun h => e h.2)] at hc
      rw [if_neg (fun h => e (by omega))]
      exact ih hp.tail hf.tail (by omega) hc
  | @lit c p d f hw hsc he h ih =>
    have hsd : isSep d = false := by rw [← eqv_sep hok he]; exact hsc
    rw [seps_cons, seps_cons, hsc, hsd] at hb
    rw [cut, if_neg (by rw [hsc]; simp)] at hc
    rw [cut, if_neg (by rw [hsd]; simp)]
    exact ih hp.tail hf.tail (by simpa using hb) hc
  | @dots c p t f hdot hw hc' hp' hf' hw' ht h ih =>
    have ht' : ∀ x ∈ t, isSep x = false := by intro x hx; rw [ht x hx]; decide
    rw [seps_append, seps_zero ht'] at hb
    rw [cut_append ht']
    exact ih hp (hf.suffix ⟨_, rfl⟩) (by omega) hc

/-! inversions -/

theorem inst_nil {a : Args} {f : List Nat} (h : Inst a [] f) : f = [] := by
  generalize hq : ([] : List Nat) = q at h
  cases h <;> simp_all

theorem inst_q {a : Args} {p f : List Nat} (h : Inst a (63 :: p) f) :
    (f = [] ∧ Inst a p []) ∨ ∃ d f', f = d :: f' ∧ isSep d = false ∧ Inst a p f' := by
  generalize hq : 63 :: p = q at h
  cases h with
  | nil => simp at hq
  | one hd h => simp only [List.cons.injEq, true_and] at hq; subst hq; exact .inr ⟨_, _, rfl, hd, h⟩
  | missing h => simp only [List.cons.injEq, true_and] at hq; subst hq; exact .inl ⟨rfl, h⟩
  | star => simp at hq
  | all => simp at hq
  | sep hc => simp only [List.cons_append, List.cons.injEq] at hq; rw [← hq.1] at hc; simp [isSep] at hc
  | lit hc => simp only [List.cons.injEq] at hq; rw [← hq.1] at hc; simp [wild] at hc
  | dots _ hc => simp only [List.cons.injEq] at hq; rw [← hq.1] at hc; simp [wild] at hc

theorem inst_lit {a : Args} (hok : LowerOk a.lower) {c : Nat} {p f : List Nat} (hc : wild c = false) (hp : NoAdj (c :: p)) (hf : NoAdj f)
    (h : Inst a (c :: p) f) :
    (∃ d f', f = d :: f' ∧ Eqv a c d ∧ Inst a p f') ∨
    (∃ t f', f = t ++ f' ∧ (∀ x ∈ t, x = 46) ∧ a.dot = true ∧ c ≠ 46 ∧ LastComp a.pattern (c :: p) ∧
      LastComp a.file f ∧ (∃ x ∈ p, wild x = true) ∧ Inst a (c :: p) f') := by
  generalize hq : c :: p = q at h
  cases h with
  | nil => simp at hq
  | one => simp only [List.cons.injEq] at hq; rw [hq.1] at hc; simp [wild] at hc
  | missing => simp only [List.cons.injEq] at hq; rw [hq.1] at hc; simp [wild] at hc
  | star => simp only [List.cons_append, List.cons.injEq] at hq; rw [hq.1] at hc; simp [wild] at hc
  | all => simp only [List.cons.injEq] at hq; rw [hq.1] at hc; simp [wild] at hc
  | @sep c1 s0 p1 d t f1 hcs hds hs ht h =>
    have e := hf.nil_of_seps hds ht; subst e
    rw [hq] at hp
    have e := hp.nil_of_seps hcs hs; subst e
    simp only [List.cons_append, List.nil_append, List.cons.injEq] at hq
    obtain ⟨rfl, rfl⟩ := hq
    exact .inl ⟨d, f1, by simp, sep_eqv hok hcs hds, h⟩
  | lit hc hs he h =>
    simp only [List.cons.injEq] at hq
    obtain ⟨rfl, rfl⟩ := hq
    exact .inl ⟨_, _, rfl, he, h⟩
  | dots h1 h2 h3 h4 h5 h6 h7 h8 =>
    simp only [List.cons.injEq] at hq
    obtain ⟨rfl, rfl⟩ := hq
    exact .inr ⟨_, _, rfl, h7, h1, h3, h4, h5, h6, h8⟩

/-- A match of an ordinary character, after all uses of the dot rule. -/
theorem inst_lit_dots {a : Args} (hok : LowerOk a.lower) {c : Nat} {p f : List Nat} (hc : wild c = false)
    (hp : NoAdj (c :: p)) (hf : NoAdj f) (h : Inst a (c :: p) f) :
    ∃ t d f', f = t ++ d :: f' ∧ (∀ x ∈ t, x = 46) ∧
      (t ≠ [] → a.dot = true ∧ c ≠ 46 ∧ LastComp a.pattern (c :: p) ∧ LastComp a.file f ∧ (∃ x ∈ p, wild x = true)) ∧
      Eqv a c d ∧ Inst a p f' := by
  generalize hq : c :: p = q at h hp
  induction h with
  | nil => simp at hq
  | one => simp only [List.cons.injEq] at hq; rw [hq.1] at hc; simp [wild] at hc
  | missing => simp only [List.cons.injEq] at hq; rw [hq.1] at hc; simp [wild] at hc
  | star => simp only [List.cons_append, List.cons.injEq] at hq; rw [hq.1] at hc; simp [wild] at hc
  | all => simp only [List.cons.injEq] at hq; rw [hq.1] at hc; simp [wild] at hc
  | @sep c1 s0 p1 d t f1 hcs hds hs ht h =>
    have e := hf.nil_of_seps hds ht; subst e
    have e := hp.nil_of_seps hcs hs; subst e
    simp only [List.cons_append, List.nil_append, List.cons.injEq] at hq
    obtain ⟨rfl, rfl⟩ := hq
    exact ⟨[], d, f1, by simp, by simp, by simp, sep_eqv hok hcs hds, h⟩
  | lit hc hs he h =>
    simp only [List.cons.injEq] at hq
    obtain ⟨rfl, rfl⟩ := hq
    exact ⟨[], _, _, rfl, by simp, by simp, he, h⟩
  | @dots c1 p1 t f1 h1 h2 h3 h4 h5 h6 h7 h8 ih =>
    obtain ⟨t0, d, f', e, ht, hd, he, h'⟩ := ih (hf.suffix ⟨_, rfl⟩) hq hp
    simp only [List.cons.injEq] at hq
    obtain ⟨rfl, rfl⟩ := hq
    refine ⟨t ++ t0, d, f', by rw [e, List.append_assoc], ?_, fun _ => ⟨h1, h3, h4, h5, h6⟩, he, h'⟩
    intro x hx
    rcases List.mem_append.1 hx with hx | hx
    · exact h7 x hx
    · exact ht x hx

theorem wild_append_unique {w p q : List Nat} (hw : ∀ c ∈ w, wild c = true) (e : q = w ++ p) :
    q.dropWhile wild = p.dropWhile wild := by
  rw [e, List.dropWhile_append_of_pos hw]

/-- A star in front of a group: what remains after the whole group of wildcards. -/
theorem inst_group {a : Args} {p f : List Nat} (h : Inst a p f) (r : List Nat) (hr : StarRun a r) :
    (∃ r' f', r ++ f = r' ++ f' ∧ StarRun a r' ∧ Inst a (p.dropWhile wild) f') ∨
    (p.dropWhile wild = [] ∧ a.me ≠ .no) := by
  have happ : ∀ r r', StarRun a r → StarRun a r' → StarRun a (r ++ r') := by
    rintro r r' (h | h) (h' | h')
    · exact .inl h
    · exact .inl h
    · exact .inl h'
    · refine .inr (fun c hc => ?_)
      rcases List.mem_append.1 hc with hc | hc
      · exact h c hc
      · exact h' c hc
  induction h generalizing r with
  | nil => exact .inl ⟨r, [], rfl, hr, .nil⟩
  | @one p d f hd h ih =>
    rw [List.dropWhile_cons_of_pos (by decide)]
    rcases ih (r ++ [d]) (happ _ _ hr (.inr (by simpa using hd))) with ⟨r', f', e, h1, h2⟩ | h
    · exact .inl ⟨r', f', by simpa using e, h1, h2⟩
    · exact .inr h
  | @missing p h ih =>
    rw [List.dropWhile_cons_of_pos (by decide)]
    exact ih r hr
  | @star w p r0 f hw hr0 h ih =>
    rw [wild_append_unique (w := 42 :: w) (p := p) ?_ rfl]
    · rcases ih (r ++ r0) (happ _ _ hr hr0) with ⟨r', f', e, h1, h2⟩ | h
      · exact .inl ⟨r', f', by simpa using e, h1, h2⟩
      · exact .inr h
    · intro c hc
      rcases List.mem_cons.1 hc with rfl | hc
      · decide
      · exact hw c hc
  | @all w f hw hm =>
    right
    refine ⟨?_, hm⟩
    refine dropWhile_all (fun c hc => ?_)
    rcases List.mem_cons.1 hc with rfl | hc
    · decide
    · exact hw c hc
  | @sep c s p d t f hc hd hs ht h ih =>
    left
    refine ⟨r, _, rfl, hr, ?_⟩
    rw [List.cons_append, List.dropWhile_cons_of_neg (by rw [sep_not_wild hc]; simp)]
    exact .sep hc hd hs ht h
  | @lit c p d f hc hs he h ih =>
    left
    refine ⟨r, _, rfl, hr, ?_⟩
    rw [List.dropWhile_cons_of_neg (by rw [hc]; simp)]
    exact .lit hc hs he h
  | @dots c p t f h1 h2 h3 h4 h5 h6 h7 h8 ih =>
    left
    refine ⟨r, _, rfl, hr, ?_⟩
    rw [List.dropWhile_cons_of_neg (by rw [h2]; simp)]
    exact .dots h1 h2 h3 h4 h5 h6 h7 h8

theorem inst_star {a : Args} {p f : List Nat} (h : Inst a (42 :: p) f) :
    (∃ r f', f = r ++ f' ∧ StarRun a r ∧ Inst a (p.dropWhile wild) f') ∨ (p.dropWhile wild = [] ∧ a.me ≠ .no) := by
  have := inst_group h [] (.inr (by simp))
  rw [List.dropWhile_cons_of_pos (by decide)] at this
  simpa using this

/-- What a round must do when there is a match. -/
def Complete (a : Args) : Res → Prop
  | .done b => b = true
  | .fail => False
  | .go p' f' => Inst a p' f'
  | .goClear p' f' => Inst a p' f'
  | .goPush p' f' e => Inst a p' f' ∨ Inst a e.1 e.2

theorem starGroups_group (p : List Nat) : starGroups true p = starGroups false (p.dropWhile wild) := by
  induction p with
  | nil => rfl
  | cons c p ih =>
    by_cases h1 : c = 42
    · subst h1; rw [List.dropWhile_cons_of_pos (by decide), ← ih]; simp [starGroups]
    · by_cases h2 : c = 63
      · subst h2; rw [List.dropWhile_cons_of_pos (by decide), ← ih]; simp [starGroups]
      · rw [List.dropWhile_cons_of_neg (by rw [not_wild h2 h1]; simp)]
        simp [starGroups, h1, h2]

theorem starGroups_lit {c : Nat} {p : List Nat} (h : wild c = false) (b : Bool) : starGroups b (c :: p) = starGroups false p := by
  unfold wild at h
  simp only [Bool.or_eq_false_iff, beq_eq_false_iff_ne] at h
  simp [starGroups, h.1, h.2]

theorem run_split (Q : Nat → Bool) (r f' f0 : List Nat) (d0 x : Nat) (h : (r ++ x :: f').dropWhile Q = d0 :: f0)
    (hx : Q x = false) :
    (d0 = x ∧ f0 = f' ∧ (r ++ x :: f').takeWhile Q = r) ∨ (∃ r', r = (r ++ x :: f').takeWhile Q ++ d0 :: r' ∧ f0 = r' ++ x :: f') := by
  induction r with
  | nil =>
    rw [List.nil_append, List.dropWhile_cons_of_neg (by rw [hx]; simp)] at h
    cases h
    left
    exact ⟨rfl, rfl, by rw [List.nil_append, List.takeWhile_cons_of_neg (by rw [hx]; simp)]⟩
  | cons y r ih =>
    by_cases hy : Q y = true
    · rw [List.cons_append, List.dropWhile_cons_of_pos hy] at h
      rw [List.cons_append, List.takeWhile_cons_of_pos hy]
      rcases ih h with ⟨h1, h2, h3⟩ | ⟨r', h1, h2⟩
      · exact .inl ⟨h1, h2, by rw [h3]⟩
      · right; exact ⟨r', by rw [List.cons_append, ← h1], h2⟩
    · rw [List.cons_append, List.dropWhile_cons_of_neg hy] at h
      cases h
      right
      exact ⟨r, by rw [List.cons_append, List.takeWhile_cons_of_neg hy]; rfl, rfl⟩

theorem step_complete (a : Args) (hok : CharsOk a.lower) (n : Nat) (p f : List Nat) (hp : p <:+ a.pattern)
    (hf : f <:+ a.file) (ap : NoAdj p) (af : NoAdj f) (hn : n + starGroups false p ≤ 10) (h : Inst a p f) :
    Complete a (step a n p f) := by
  unfold step
  split
  · rw [inst_nil h]; simp [Complete]
  · rename_i c p
    split
    · rename_i hc; subst hc
      rcases inst_q h with ⟨rfl, h'⟩ | ⟨d, f', rfl, hd, h'⟩
      · exact h'
      · simp only [hd, Bool.false_eq_true, if_false]; exact h'
    · rename_i hq
      split
      · rename_i hc; subst hc
        have hg : starGroups false (42 :: p) = 1 + starGroups false (p.dropWhile wild) := by
          rw [← starGroups_group]; simp [starGroups]
        rw [hg] at hn
        have hinv := inst_star h
        split
        · rename_i hp'
          split
          · rfl
          · rename_i hm
            rcases hinv with ⟨r, f', e, hr, h'⟩ | ⟨-, h'⟩
            · rw [hp'] at h'
              have := inst_nil h'; subst this
              rw [List.append_nil] at e; subst e
              have hr : ∀ c ∈ f, isSep c = false := by
                rcases hr with hr | hr
                · rw [hr] at hm; simp at hm
                · exact hr
              rw [if_pos (dropWhile_all (fun c hc => by rw [hr c hc]; rfl))]
              simp only [Complete, decide_eq_true_eq]
              omega
            · exact absurd h' hm
        · rename_i c' p' hp'
          have hwild : wild c' = false := dropWhile_head hp'
          rcases hinv with ⟨r, f1, e, hr, h'⟩ | ⟨h', -⟩
          · rw [hp'] at h' hn
            have hpe : p = p.takeWhile wild ++ c' :: p' := by
              rw [← hp']; exact (List.takeWhile_append_dropWhile).symm
            have hsp0 : c' :: p' <:+ p := ⟨p.takeWhile wild, hpe.symm⟩
            have hsp : c' :: p' <:+ 42 :: p := hsp0.trans (List.suffix_cons _ _)
            have hnl : ¬ LastComp a.pattern (c' :: p') := by
              -- the character before is a wildcard
              have : ∃ w, wild w = true ∧ w :: c' :: p' <:+ 42 :: p := by
                rcases List.eq_nil_or_concat (p.takeWhile wild) with e0 | ⟨L, b, e0⟩
                · rw [e0] at hpe; rw [hpe]; exact ⟨42, by decide, List.suffix_refl _⟩
                · refine ⟨b, takeWhile_all b (by rw [e0]; simp), ?_⟩
                  refine List.IsSuffix.trans ⟨L, ?_⟩ (List.suffix_cons 42 p)
                  rw [e0] at hpe
                  rw [hpe]; simp
              obtain ⟨w, hw, hs⟩ := this
              exact after_wild_not_last (hs.trans hp) hw
            have af1 : NoAdj f1 := af.suffix ⟨r, e.symm⟩
            rcases inst_lit hok.toLowerOk hwild (ap.suffix hsp) af1 h' with ⟨d, f2, rfl, he, h2⟩ | ⟨_, _, _, _, _, _, hl, _⟩
            · -- the scan stops at or before `d`
              have hQd : ((decide (a.me = .yes) || !isSep d) && !matchChar a d c') = false := by
                rw [(matchChar_iff a d c').2 he.symm]; simp
              subst e
              cases hdw : (r ++ d :: f2).dropWhile (fun d => (decide (a.me = .yes) || !isSep d) && !matchChar a d c') with
              | nil =>
                exfalso
                have := dropWhile_nil hdw d (by simp)
                simp only [hQd] at this
                simp at this
              | cons d0 f0 =>
                simp only
                rcases run_split _ r f2 f0 d0 d hdw hQd with ⟨rfl, rfl, ht⟩ | ⟨r', e1, e2⟩
                · rw [if_pos ((matchChar_iff a d0 c').2 he.symm)]
                  split
                  · exact h2
                  · rw [if_neg (by omega)]; exact .inl h2
                · have hd0 : a.me = .yes ∨ isSep d0 = false := by
                    rcases hr with hr | hr
                    · exact .inl hr
                    · exact .inr (hr d0 (by rw [e1]; simp))
                  have hm0 : matchChar a d0 c' = true := by
                    have := dropWhile_head hdw
                    rcases hd0 with h | h
                    · simpa [h] using this
                    · simpa [h] using this
                  rw [if_pos hm0, if_neg, if_neg (by omega)]
                  · right
                    simp only
                    have h3 : Inst a (42 :: p.takeWhile wild ++ c' :: p') (r' ++ d :: f2) := by
                      refine .star takeWhile_all ?_ h'
                      rcases hr with hr | hr
                      · exact .inl hr
                      · exact .inr (fun c hc => hr c (by rw [e1]; simp [hc]))
                    rw [List.cons_append, ← hpe, ← e2] at h3
                    exact h3
                  · rcases hd0 with h | h
                    · simp [h]
                    · simp [h]
            · exact absurd hl hnl
          · rw [hp'] at h'; simp at h'
      · rename_i hs
        have hwild := not_wild hq hs
        have hcases := skipDots_cases a c p f hp hf hwild
        -- after passing over the dots there is a plain match
        have key : ∃ d f', skipDots a c p f = d :: f' ∧ Eqv a c d ∧ Inst a p f' := by
          obtain ⟨t, d, f', e, ht, hdots, he, h'⟩ := inst_lit_dots hok.toLowerOk hwild ap af h
          have hd46 : c ≠ 46 → d ≠ 46 := fun hc hd => by subst hd; exact hc (eqv_dot hok he)
          refine ⟨d, f', ?_, he, h'⟩
          cases t with
          | nil =>
            rw [List.nil_append] at e
            rcases hcases with ⟨e', -⟩ | ⟨e', -, hc, -⟩
            · rw [e', e]
            · rw [e', e, List.dropWhile_cons_of_neg (by simpa using hd46 hc)]
          | cons x t =>
            obtain ⟨h1, h2, h3, h4, h5⟩ := hdots (by simp)
            have hx : x = 46 := ht x (by simp)
            rcases hcases with ⟨e', hno⟩ | ⟨e', -, hc, -⟩
            · exact absurd ⟨h1, h2, h3, h4, h5, t ++ d :: f', by rw [e, hx]; rfl⟩ hno
            · rw [e', e, List.dropWhile_append_of_pos (by simpa using ht),
                List.dropWhile_cons_of_neg (by simpa using hd46 hc)]
        obtain ⟨d, f', e, he, h'⟩ := key
        have hsfx : d :: f' <:+ f := by
          rw [← e]
          rcases hcases with ⟨e, -⟩ | ⟨e, -⟩ <;> rw [e]
          · exact List.suffix_refl _
          · exact List.dropWhile_suffix _
        rw [e]
        simp only
        rw [if_pos ((matchChar_iff a d c).2 he.symm)]
        split
        · rename_i hsep
          have hsd : isSep d = true := eqv_sep hok.toLowerOk he ▸ hsep
          have e1 := ap.drop hsep
          have e2 := (af.suffix hsfx).drop hsd
          rw [e1, e2]; exact h'
        · exact h'

/-- Facts kept about a position. -/
structure Good (a : Args) (p f : List Nat) : Prop where
  sp : p <:+ a.pattern
  sf : f <:+ a.file
  bal : a.me ≠ .yes → seps p + seps a.file = seps f + seps a.pattern

/-- Positions after a round. -/
def Keeps (a : Args) (p f : List Nat) : Res → Prop
  | .done _ => True
  | .fail => True
  | .go p' f' => p' <:+ p ∧ Good a p' f' ∧ starGroups false p' = starGroups false p
  | .goClear p' f' => a.me ≠ .yes ∧ p' <:+ p ∧ Good a p' f' ∧ starGroups false p' ≤ starGroups false p ∧
      cut (seps p') p = some p' ∧ cut (seps f') f = some f'
  | .goPush p' f' e => p' <:+ p ∧ Good a p' f' ∧ starGroups false p' + 1 = starGroups false p ∧ e.1 = p ∧
      Good a e.1 e.2

theorem cut_some {s l : List Nat} {c : Nat} (hs : ∀ x ∈ s, isSep x = false) (hc : isSep c = true) :
    cut (seps l) (s ++ c :: l) = some l := by
  rw [cut_append hs, cut, if_pos ⟨hc, rfl⟩]

theorem step_keeps (a : Args) (hok : LowerOk a.lower) (n : Nat) (p f : List Nat) (hg : Good a p f)
    (ap : NoAdj p) (af : NoAdj f) : Keeps a p f (step a n p f) := by
  have hsf := hg.sf
  have hsp := hg.sp
  unfold step
  split
  · split <;> trivial
  · rename_i c p
    have hsp' : p <:+ a.pattern := (List.suffix_cons _ _).trans hsp
    split
    · rename_i hc; subst hc
      have hg1 : starGroups false (63 :: p) = starGroups false p := by simp [starGroups]
      split
      · refine ⟨List.suffix_cons _ _, ⟨hsp', hsf, fun hy => ?_⟩, hg1.symm⟩
        have := hg.bal hy; rw [seps_cons] at this; simpa [isSep] using this
      · rename_i d f
        split
        · trivial
        · rename_i hd
          have hd : isSep d = false := by simpa using hd
          refine ⟨List.suffix_cons _ _, ⟨hsp', (List.suffix_cons _ _).trans hsf, fun hy => ?_⟩, hg1.symm⟩
          have := hg.bal hy; rw [seps_cons, seps_cons, hd] at this; simpa [isSep] using this
    · rename_i hq
      split
      · rename_i hc; subst hc
        split
        · split
          · trivial
          · split <;> trivial
        · rename_i c' p' hp'
          split
          · trivial
          · rename_i d f' hf'
            have hpe : p = p.takeWhile wild ++ c' :: p' := by
              rw [← hp']; exact (List.takeWhile_append_dropWhile).symm
            have hsp1 : p' <:+ p := ⟨p.takeWhile wild ++ [c'], by rw [List.append_assoc]; exact hpe.symm⟩
            have hwild : wild c' = false := dropWhile_head hp'
            generalize hQ : (fun d => (decide (a.me = .yes) || !isSep d) && !matchChar a d c') = Q at hf'
            have hfe : f = f.takeWhile Q ++ d :: f' := by
              rw [← hf']; exact (List.takeWhile_append_dropWhile).symm
            have hsf1 : f' <:+ f := ⟨f.takeWhile Q ++ [d], by rw [List.append_assoc]; exact hfe.symm⟩
            have hrun : a.me ≠ .yes → ∀ x ∈ f.takeWhile Q, isSep x = false := by
              intro hy x hx
              have := takeWhile_all x hx
              rw [← hQ] at this
              simp [hy] at this
              exact this.1
            have hw42 : ∀ x ∈ 42 :: p.takeWhile wild, isSep x = false := by
              intro x hx
              rcases List.mem_cons.1 hx with rfl | hx
              · decide
              · exact wild_not_sep (takeWhile_all x hx)
            have hgr : starGroups false p' + 1 = starGroups false (42 :: p) := by
              have : starGroups false (42 :: p) = 1 + starGroups true p := by simp [starGroups]
              rw [this, starGroups_group, hp', starGroups_lit hwild]; omega
            split
            · rename_i hm
              have he := (matchChar_iff a d c').1 hm
              have hsepeq := eqv_sep hok he
              have hcur : Good a p' f' := by
                refine ⟨hsp1.trans hsp', hsf1.trans hsf, fun hy => ?_⟩
                have := hg.bal hy
                have e1 : seps (42 :: p) = seps (c' :: p') := by
                  have : 42 :: p = (42 :: p.takeWhile wild) ++ c' :: p' := by rw [List.cons_append, ← hpe]
                  rw [this, seps_append, seps_zero hw42]; omega
                have e2 : seps f = seps (d :: f') := by
                  conv => lhs; rw [hfe]
                  rw [seps_append, seps_zero (hrun hy)]; omega
                rw [e1, e2, seps_cons, seps_cons, hsepeq] at this
                omega
              split
              · rename_i hcl
                simp only [ne_eq, decide_not, Bool.and_eq_true, Bool.not_eq_eq_eq_not, Bool.not_true, decide_eq_false_iff_not] at hcl
                refine ⟨hcl.1, hsp1.trans (List.suffix_cons _ _), hcur, by omega, ?_, ?_⟩
                · have : 42 :: p = (42 :: p.takeWhile wild) ++ c' :: p' := by rw [List.cons_append, ← hpe]
                  rw [this, cut_some hw42 (by rw [← hsepeq]; exact hcl.2)]
                · conv => lhs; rw [hfe]
                  rw [cut_some (hrun hcl.1) hcl.2]
              · rename_i hncl
                split
                · trivial
                · refine ⟨hsp1.trans (List.suffix_cons _ _), hcur, hgr, rfl, ⟨hsp, hsf1.trans hsf, fun hy => ?_⟩⟩
                  have := hg.bal hy
                  have hd : isSep d = false := by simpa [hy] using hncl
                  have e2 : seps f = seps f' := by
                    conv => lhs; rw [hfe]
                    rw [seps_append, seps_zero (hrun hy), seps_cons, hd]; simp
                  simp only; omega
            · trivial
      · rename_i hs
        have hwild := not_wild hq hs
        have hcases := skipDots_cases a c p f hsp hsf hwild
        split
        · trivial
        · rename_i d f' hsk
          have hsfx : d :: f' <:+ f ∧ seps (d :: f') = seps f := by
            rw [← hsk]
            rcases hcases with ⟨e, -⟩ | ⟨e, -⟩ <;> rw [e]
            · exact ⟨List.suffix_refl _, rfl⟩
            · refine ⟨List.dropWhile_suffix _, ?_⟩
              obtain ⟨t, ht, hft⟩ := dropDots_eq f
              conv => rhs; rw [hft]
              rw [seps_append, seps_zero (l := t) (fun x hx => by rw [ht x hx]; decide)]; omega
          split
          · rename_i hm
            have he := (matchChar_iff a d c).1 hm
            have hsepeq := eqv_sep hok he
            have hcur : Good a p f' := by
              refine ⟨hsp', (List.suffix_cons _ _).trans (hsfx.1.trans hsf), fun hy => ?_⟩
              have := hg.bal hy
              rw [← hsfx.2, seps_cons, seps_cons, hsepeq] at this
              omega
            split
            · rename_i hsep
              have e1 := ap.drop hsep
              have e2 := (af.suffix hsfx.1).drop (by rw [hsepeq]; exact hsep)
              rw [e1, e2]
              exact ⟨List.suffix_cons _ _, hcur, (starGroups_lit hwild _).symm⟩
            · exact ⟨List.suffix_cons _ _, hcur, (starGroups_lit hwild _).symm⟩
          · trivial

/-- The only way to give up for good is a full stack. -/
theorem step_done_false (a : Args) (n : Nat) (p f : List Nat) (h : step a n p f = .done false) :
    n = 10 ∧ 1 ≤ starGroups false p := by
  unfold step at h
  split at h
  · split at h <;> simp at h
  · rename_i c p
    split at h
    · split at h
      · simp at h
      · split at h <;> simp at h
    · split at h
      · rename_i hc; subst hc
        have hg : 1 ≤ starGroups false (42 :: p) := by simp [starGroups]
        refine ⟨?_, hg⟩
        split at h
        · split at h
          · simp at h
          · split at h
            · simpa using h
            · simp at h
        · split at h
          · simp at h
          · split at h
            · split at h
              · simp at h
              · split at h
                · assumption
                · simp at h
            · simp at h
      · split at h
        · simp at h
        · split at h
          · split at h <;> simp at h
          · simp at h

/-- Depth bookkeeping of the stack (newest first). -/
def StkOk : List Entry → Prop
  | [] => True
  | e :: s => s.length + starGroups false e.1 ≤ 10 ∧ (∀ e' ∈ s, e.1 <:+ e'.1) ∧ StkOk s

theorem run_complete (a : Args) (hok : CharsOk a.lower) (aP : NoAdj a.pattern) (aF : NoAdj a.file)
    (p f : List Nat) (stk : List Entry) (hg : Good a p f) (hs : ∀ e ∈ stk, Good a e.1 e.2 ∧ p <:+ e.1)
    (hn : stk.length + starGroups false p ≤ 10) (ho : StkOk stk)
    (h : Inst a p f ∨ ∃ e ∈ stk, Inst a e.1 e.2) : run a p f stk = true := by
  fun_induction run a p f stk with
  | case1 p f stk b hst =>
    rcases h with h | ⟨e, he, h⟩
    · have := step_complete a hok stk.length p f hg.sp hg.sf (aP.suffix hg.sp) (aF.suffix hg.sf) hn h
      rw [hst] at this; exact this
    · cases b
      · have := step_done_false a _ _ _ hst; omega
      · rfl
  | case2 p f stk p' f' hst ih =>
    have hk := step_keeps a hok.toLowerOk stk.length p f hg (aP.suffix hg.sp) (aF.suffix hg.sf)
    rw [hst] at hk
    obtain ⟨k1, k2, k3⟩ := hk
    refine ih k2 (fun e he => ⟨(hs e he).1, k1.trans (hs e he).2⟩) (by omega) ho ?_
    rcases h with h | h
    · have := step_complete a hok stk.length p f hg.sp hg.sf (aP.suffix hg.sp) (aF.suffix hg.sf) hn h
      rw [hst] at this; exact .inl this
    · exact .inr h
  | case3 p f stk p' f' hst ih =>
    have hk := step_keeps a hok.toLowerOk stk.length p f hg (aP.suffix hg.sp) (aF.suffix hg.sf)
    rw [hst] at hk
    obtain ⟨hy, k1, k2, k3, k4, k5⟩ := hk
    refine ih k2 (by simp) (by simp only [List.length_nil]; omega) trivial (.inl ?_)
    rcases h with h | ⟨e, he, h⟩
    · have := step_complete a hok stk.length p f hg.sp hg.sf (aP.suffix hg.sp) (aF.suffix hg.sf) hn h
      rw [hst] at this; exact this
    · -- the commitment at a separator loses nothing
      obtain ⟨ge, hpe⟩ := hs e he
      have c1 : seps p' < seps p := by
        apply Nat.lt_of_not_le; intro hle; rw [cut_none hle] at k4; simp at k4
      have c2 : seps f' < seps f := by
        apply Nat.lt_of_not_le; intro hle; rw [cut_none hle] at k5; simp at k5
      have b0 := hg.bal hy
      have b1 := k2.bal hy
      have b2 := ge.bal hy
      have s1 := seps_suffix hpe
      have e1 : cut (seps p') e.1 = some p' := by rw [cut_suffix hpe c1, k4]
      obtain ⟨f2, e2, h2⟩ := align hy hok.toLowerOk h (aP.suffix ge.sp) (aF.suffix ge.sf) b2 b1 e1
      have e3 : cut (seps f') a.file = cut (seps f') e.2 := cut_suffix ge.sf (by omega)
      have e4 : cut (seps f') a.file = cut (seps f') f := cut_suffix hg.sf c2
      rw [← e3, e4, k5] at e2
      cases e2
      exact h2
  | case4 p f stk p' f' e hst ih =>
    have hk := step_keeps a hok.toLowerOk stk.length p f hg (aP.suffix hg.sp) (aF.suffix hg.sf)
    rw [hst] at hk
    obtain ⟨k1, k2, k3, k4, k5⟩ := hk
    refine ih k2 ?_ (by simp only [List.length_cons]; omega) ⟨by rw [k4]; exact hn, fun e' he' => by rw [k4]; exact (hs e' he').2, ho⟩ ?_
    · intro e' he'
      rcases List.mem_cons.1 he' with rfl | he'
      · exact ⟨k5, by rw [k4]; exact k1⟩
      · exact ⟨(hs e' he').1, k1.trans (hs e' he').2⟩
    · rcases h with h | ⟨e', he', h⟩
      · have := step_complete a hok stk.length p f hg.sp hg.sf (aP.suffix hg.sp) (aF.suffix hg.sf) hn h
        rw [hst] at this
        rcases this with h | h
        · exact .inl h
        · exact .inr ⟨e, by simp, h⟩
      · exact .inr ⟨e', by simp [he'], h⟩
  | case5 p f hst =>
    rcases h with h | ⟨e, he, h⟩
    · have := step_complete a hok 0 p f hg.sp hg.sf (aP.suffix hg.sp) (aF.suffix hg.sf) hn h
      rw [List.length_nil] at hst
      rw [hst] at this; exact this.elim
    · simp at he
  | case6 p f e s hst ih =>
    obtain ⟨o1, o2, o3⟩ := ho
    refine ih (hs e (by simp)).1 (fun e' he' => ⟨(hs e' (by simp [he'])).1, o2 e' he'⟩) o1 o3 ?_
    rcases h with h | ⟨e', he', h⟩
    · have := step_complete a hok _ p f hg.sp hg.sf (aP.suffix hg.sp) (aF.suffix hg.sf) hn h
      rw [hst] at this; exact this.elim
    · rcases List.mem_cons.1 he' with rfl | he'
      · exact .inl h
      · exact .inr ⟨e', he', h⟩

end Clink.MatchWild
