import Verif.Proof.MatchColors
/-! What the conditions of a rule become, and what all items become. -/
namespace Clink.MatchColors
open Spec (Piece Word textOf valueOf Ty Cond Item active pats simple)

def toInd : Ty → Ind
  | .no => .no | .fi => .fi | .di => .di | .ro => .ro | .hi => .hi
  | .ln => .ln | .ex => .ex | .mi => .mi | .orphan => .orp | .so => .so

theorem toInd_inj {a b : Ty} (h : toInd a = toInd b) : a = b := by cases a <;> cases b <;> first | rfl | cases h

/-- What one condition does. -/
def cstep (s : Cur) : Cond → Cur
  | .ty true t =>
    { s with numFlags := s.numFlags + 1, rlind := some (toInd t), notCflags := s.notCflags ++ (toInd t).cflag, notOp := false }
  | .ty false t =>
    { s with numFlags := s.numFlags + 1, rlind := some (toInd t), cflags := s.cflags ++ (toInd t).cflag, notOp := false }
  | .any => { s with cflags := [], notCflags := [], numFlags := 0, everAny := true, notOp := false }
  | .pat n p => { s with patterns := s.patterns ++ [(p, n)], notOp := false }

theorem map_lower_eq (l : Text) : l.map lower = Spec.lowered l := rfl

theorem iequals_iff {a k : Text} (hk : Spec.lowered k = k) : iequals a k = true ↔ Spec.lowered a = k := by
  unfold iequals
  rw [map_lower_eq, map_lower_eq, hk, beq_iff_eq]

theorem name_word (t : Ty) : (toInd t).name = t.word := by cases t <;> decide +kernel

theorem lowered_word (t : Ty) : Spec.lowered t.word = t.word := by cases t <;> decide +kernel

theorem isNot_iff {w : Word} : iequals (valueOf w) [110, 111, 116] = true ↔ Spec.isWord w (Spec.bs "not") :=
  iequals_iff (k := [110, 111, 116]) (by decide)

theorem isAny_iff {w : Word} : iequals (valueOf w) [97, 110, 121] = true ↔ Spec.isWord w (Spec.bs "any") :=
  iequals_iff (k := [97, 110, 121]) (by decide)

theorem isTy_iff {w : Word} {t : Ty} : iequals (valueOf w) (toInd t).name = true ↔ Spec.isWord w t.word := by
  rw [name_word]; exact iequals_iff (lowered_word t)

theorem mem_indicators (i : Ind) : i ∈ indicators := by cases i <;> decide

theorem exists_toInd (i : Ind) : ∃ t, toInd t = i := by
  cases i
  · exact ⟨.no, rfl⟩
  · exact ⟨.fi, rfl⟩
  · exact ⟨.di, rfl⟩
  · exact ⟨.ro, rfl⟩
  · exact ⟨.hi, rfl⟩
  · exact ⟨.ln, rfl⟩
  · exact ⟨.ex, rfl⟩
  · exact ⟨.mi, rfl⟩
  · exact ⟨.orphan, rfl⟩
  · exact ⟨.so, rfl⟩

theorem word_inj {a b : Ty} (h : a.word = b.word) : a = b := by
  cases a <;> cases b <;> first | rfl | exact absurd h (by decide +kernel)

theorem find_ty {w : Word} {t : Ty} (h : Spec.isWord w t.word) :
    indicators.find? (fun i => iequals (valueOf w) i.name) = some (toInd t) := by
  cases hf : indicators.find? (fun i => iequals (valueOf w) i.name) with
  | none =>
    have := List.find?_eq_none.1 hf (toInd t) (mem_indicators _)
    exact absurd (isTy_iff.2 h) this
  | some i =>
    obtain ⟨t', rfl⟩ := exists_toInd i
    have h' := (isTy_iff (w := w) (t := t')).1 (List.find?_some (p := fun i : Ind => iequals (valueOf w) i.name) hf)
    unfold Spec.isWord at h h'
    rw [word_inj (h.symm.trans h')]

theorem find_none {w : Word} (h : Spec.noKeyword w) :
    indicators.find? (fun i => iequals (valueOf w) i.name) = none := by
  rw [List.find?_eq_none]
  intro i _ hi
  obtain ⟨t, rfl⟩ := exists_toInd i
  exact h.1 t (isTy_iff.1 hi)

theorem plain_iff {w : Word} : quotedIn w = false ↔ Spec.plain w := by
  unfold quotedIn Spec.plain
  rw [List.any_eq_false]
  constructor
  · intro h p hp; simpa using h p hp
  · intro h p hp; simpa using h p hp

theorem condStep_not {s : Cur} {w : Word} (h : Spec.isWord w (Spec.bs "not")) :
    condStep s (valueOf w) (quotedIn w) = { s with notOp := true } := by
  unfold condStep
  rw [if_pos (isNot_iff.2 h)]

theorem condStep_ty {s : Cur} {w : Word} {t : Ty} (hp : Spec.plain w) (h : Spec.isWord w t.word) :
    condStep s (valueOf w) (quotedIn w) = cstep s (.ty s.notOp t) := by
  have hn : ¬ iequals (valueOf w) [110, 111, 116] = true := by
    intro h'
    have := isNot_iff.1 h'
    unfold Spec.isWord at h this
    rw [h] at this
    revert this
    cases t <;> decide +kernel
  unfold condStep
  rw [if_neg hn, plain_iff.2 hp]
  simp only [Bool.false_eq_true, if_false, find_ty h]
  obtain ⟨a, b, c, d, e, f, n⟩ := s
  cases n <;> rfl

theorem condStep_any {s : Cur} {w : Word} (hp : Spec.plain w) (h : Spec.isWord w (Spec.bs "any")) :
    condStep s (valueOf w) (quotedIn w) = cstep s .any := by
  have hn : ¬ iequals (valueOf w) [110, 111, 116] = true := by
    intro h'
    have := isNot_iff.1 h'
    unfold Spec.isWord at h this
    rw [h] at this
    exact absurd this (by decide +kernel)
  have hf : indicators.find? (fun i => iequals (valueOf w) i.name) = none := by
    rw [List.find?_eq_none]
    intro i _ hi
    obtain ⟨t, rfl⟩ := exists_toInd i
    have := isTy_iff.1 hi
    unfold Spec.isWord at h this
    rw [h] at this
    revert this
    cases t <;> decide +kernel
  unfold condStep
  rw [if_neg hn, plain_iff.2 hp]
  simp only [Bool.false_eq_true, if_false, hf, Bool.not_false, Bool.true_and, isAny_iff.2 h, if_true]
  rfl

theorem condStep_pat {s : Cur} {w : Word} (hn : ¬ Spec.isWord w (Spec.bs "not")) (hp : Spec.plain w → Spec.noKeyword w) :
    condStep s (valueOf w) (quotedIn w) = cstep s (.pat s.notOp (valueOf w)) := by
  have hn' : ¬ iequals (valueOf w) [110, 111, 116] = true := fun h => hn (isNot_iff.1 h)
  unfold condStep
  rw [if_neg hn']
  cases hq : quotedIn w with
  | true => rfl
  | false =>
    have hk := hp (plain_iff.1 hq)
    have ha : iequals (valueOf w) [97, 110, 121] = false := by
      cases h : iequals (valueOf w) [97, 110, 121] with
      | false => rfl
      | true => exact absurd (isAny_iff.1 h) hk.2
    simp only [Bool.false_eq_true, if_false, find_none hk, ha, Bool.and_false]
    rfl

theorem cstep_notOp (s : Cur) (c : Cond) : (cstep s c).notOp = false := by
  cases c with
  | ty n t => cases n <;> rfl
  | any => rfl
  | pat n p => rfl

theorem says_fold {ws : List Word} {cs : List Cond} (h : Spec.Says ws cs) : ∀ s : Cur, s.notOp = false →
    ws.foldl (fun s w => condStep s (valueOf w) (quotedIn w)) s = cs.foldl cstep s := by
  induction h with
  | nil => intro s _; rfl
  | ty t hp hw _ ih =>
    intro s hs
    rw [List.foldl_cons, List.foldl_cons, condStep_ty hp hw, ih _ (cstep_notOp _ _), hs]
  | notTy t hn hp hw _ ih =>
    intro s hs
    rw [List.foldl_cons, List.foldl_cons, List.foldl_cons, condStep_not hn, condStep_ty hp hw, ih _ (cstep_notOp _ _)]
    rfl
  | any hp hw _ ih =>
    intro s hs
    rw [List.foldl_cons, List.foldl_cons, condStep_any hp hw, ih _ (cstep_notOp _ _)]
  | pat hn hp _ ih =>
    intro s hs
    rw [List.foldl_cons, List.foldl_cons, condStep_pat hn hp, ih _ (cstep_notOp _ _), hs]
  | notPat hn hn' hp _ ih =>
    intro s hs
    rw [List.foldl_cons, List.foldl_cons, List.foldl_cons, condStep_not hn, condStep_pat hn' hp, ih _ (cstep_notOp _ _)]
    rfl

/-! ### The sum of the conditions -/

def posFlags (l : List (Bool × Ty)) : List Flag := l.flatMap fun t => if t.1 then [] else (toInd t.2).cflag
def negFlags (l : List (Bool × Ty)) : List Flag := l.flatMap fun t => if t.1 then (toInd t.2).cflag else []

theorem mem_any_cons {c : Cond} {cs : List Cond} (h : c ≠ .any) : Cond.any ∈ c :: cs ↔ Cond.any ∈ cs := by
  rw [List.mem_cons]
  exact ⟨fun h' => h'.resolve_left (fun e => h e.symm), Or.inr⟩

theorem fold_pats (cs : List Cond) : ∀ s : Cur, (cs.foldl cstep s).patterns = s.patterns ++ (pats cs).map (fun p => (p.2, p.1)) := by
  induction cs with
  | nil => intro s; simp [pats]
  | cons c cs ih =>
    intro s
    rw [List.foldl_cons, ih]
    cases c with
    | ty n t => cases n <;> rfl
    | any => rfl
    | pat n p => simp [pats, cstep]

theorem fold_any (cs : List Cond) : ∀ s : Cur, (cs.foldl cstep s).everAny = (s.everAny || decide (Cond.any ∈ cs)) := by
  induction cs with
  | nil => intro s; simp
  | cons c cs ih =>
    intro s
    rw [List.foldl_cons, ih]
    cases c with
    | ty n t => cases n <;> simp [cstep]
    | any => simp [cstep]
    | pat n p => simp [cstep]

theorem fold_flags (cs : List Cond) : ∀ s : Cur,
    (cs.foldl cstep s).cflags = (if Cond.any ∈ cs then [] else s.cflags) ++ posFlags (active cs) ∧
    (cs.foldl cstep s).notCflags = (if Cond.any ∈ cs then [] else s.notCflags) ++ negFlags (active cs) ∧
    (cs.foldl cstep s).numFlags = (if Cond.any ∈ cs then 0 else s.numFlags) + (active cs).length := by
  induction cs with
  | nil => intro s; simp [active, posFlags, negFlags]
  | cons c cs ih =>
    intro s
    rw [List.foldl_cons]
    obtain ⟨h1, h2, h3⟩ := ih (cstep s c)
    rw [h1, h2, h3]
    cases c with
    | any =>
      have hm : Cond.any ∈ Cond.any :: cs := List.mem_cons_self
      simp only [hm, if_true, active]
      refine ⟨?_, ?_, ?_⟩ <;> split <;> simp [cstep]
    | ty n t =>
      simp only [mem_any_cons (c := .ty n t) (cs := cs) (by intro h; cases h)]
      by_cases ha : Cond.any ∈ cs
      · simp [ha, active]
      · cases n <;> simp [ha, active, cstep, posFlags, negFlags] <;> omega
    | pat n p =>
      simp only [mem_any_cons (c := .pat n p) (cs := cs) (by intro h; cases h)]
      exact ⟨rfl, rfl, rfl⟩

theorem fold_rlind (cs : List Cond) : ∀ s : Cur,
    (∀ x, (active cs).getLast? = some x → (cs.foldl cstep s).rlind = some (toInd x.2)) ∧
    (active cs = [] → Cond.any ∉ cs → (cs.foldl cstep s).rlind = s.rlind) := by
  induction cs with
  | nil => intro s; exact ⟨fun x hx => (by cases hx), fun _ _ => rfl⟩
  | cons c cs ih =>
    intro s
    rw [List.foldl_cons]
    obtain ⟨h1, h2⟩ := ih (cstep s c)
    cases c with
    | any =>
      exact ⟨fun x hx => h1 x hx, fun _ h => absurd List.mem_cons_self h⟩
    | pat n p =>
      exact ⟨fun x hx => h1 x hx, fun he ha => h2 he (fun h => ha (List.mem_cons_of_mem _ h))⟩
    | ty n t =>
      by_cases ha : Cond.any ∈ cs
      · refine ⟨fun x hx => h1 x (by simpa [active, ha] using hx), fun _ h => absurd (List.mem_cons_of_mem _ ha) h⟩
      · have he : active (.ty n t :: cs) = (n, t) :: active cs := by simp [active, ha]
        rw [he]
        refine ⟨fun x hx => ?_, fun h => by cases h⟩
        cases hc : active cs with
        | nil =>
          rw [hc] at hx
          cases hx
          rw [h2 hc ha]
          cases n <;> rfl
        | cons y l =>
          rw [hc] at hx
          rw [List.getLast?_cons_cons] at hx
          exact h1 x (by rw [hc]; exact hx)

/-- The rule made from conditions. -/
def ruleOf (cs : List Cond) (color : Text) : Rule :=
  ⟨if active cs = [] ∧ Cond.any ∉ cs then [.file] else posFlags (active cs), negFlags (active cs),
   (pats cs).map (fun p => (p.2, p.1)), color⟩

theorem cflag_ne {t : Ty} (h : t ≠ .mi ∧ t ≠ .orphan ∧ t ≠ .so) : ∃ f, (toInd t).cflag = [f] := by
  cases t
  all_goals first
    | exact ⟨_, rfl⟩
    | exact absurd rfl h.1
    | exact absurd rfl h.2.1
    | exact absurd rfl h.2.2

theorem active_mem {cs : List Cond} {t : Bool × Ty} (h : t ∈ active cs) : Cond.ty t.1 t.2 ∈ cs := by
  induction cs with
  | nil => cases h
  | cons c cs ih =>
    cases c with
    | any => exact List.mem_cons_of_mem _ (ih h)
    | pat n p => exact List.mem_cons_of_mem _ (ih h)
    | ty n u =>
      rw [active] at h
      split at h
      · exact List.mem_cons_of_mem _ (ih h)
      · rcases List.mem_cons.1 h with h | h
        · subst h; exact List.mem_cons_self
        · exact List.mem_cons_of_mem _ (ih h)

theorem flags_nil {l : List (Bool × Ty)} (hl : ∀ t ∈ l, t.2 ≠ .mi ∧ t.2 ≠ .orphan ∧ t.2 ≠ .so)
    (h1 : posFlags l = []) (h2 : negFlags l = []) : l = [] := by
  cases l with
  | nil => rfl
  | cons t l =>
    obtain ⟨f, hf⟩ := cflag_ne (hl t List.mem_cons_self)
    obtain ⟨n, t⟩ := t
    cases n
    · simp [posFlags, hf] at h1
    · simp [negFlags, hf] at h2

/-- What adding one item does. -/
def addSem (st : State) : Item → State
  | .pfx c => { st with stats := true, pfx := some c }
  | .rule cs c =>
    match simple cs with
    | some t => { st with colors := fun j => if j = toInd t then some c else st.colors j, stats := true }
    | none => { st with rules := st.rules ++ [ruleOf cs c], stats := true }

theorem usable_active {cs : List Cond} {c : Text} (hu : Spec.Usable (.rule cs c)) :
    ∀ t ∈ active cs, t.2 ≠ .mi ∧ t.2 ≠ .orphan ∧ t.2 ≠ .so := by
  intro t ht
  have := active_mem ht
  obtain ⟨n, t⟩ := t
  cases n
  · exact hu.2.1 t (.inr this)
  · exact hu.2.1 t (.inl this)

theorem addRule_sem {st : State} {cs : List Cond} {c : Text} (hu : Spec.Usable (.rule cs c)) :
    addRule st (cs.foldl cstep {}) c = addSem st (.rule cs c) := by
  have hact := usable_active hu
  obtain ⟨f1, f2, f3⟩ := fold_flags cs {}
  have f4 := fold_pats cs {}
  have f5 := fold_any cs {}
  obtain ⟨f6, _⟩ := fold_rlind cs {}
  generalize cs.foldl cstep {} = s at f1 f2 f3 f4 f5 f6
  simp only [ite_self, List.nil_append, Nat.zero_add, Bool.false_or] at f1 f2 f3 f4 f5
  unfold addRule
  by_cases hs : ∃ t, simple cs = some t
  · obtain ⟨t, ht⟩ := hs
    have hap : active cs = [(false, t)] ∧ pats cs = [] := by
      unfold simple at ht
      split at ht
      · rename_i h1 h2; cases ht; exact ⟨h1, h2⟩
      · cases ht
    obtain ⟨ha, hp⟩ := hap
    rw [ha] at f1 f2 f3 f6
    rw [hp] at f4
    have hr : s.rlind = some (toInd t) := f6 (false, t) rfl
    obtain ⟨f, hf⟩ := cflag_ne (hact (false, t) (by rw [ha]; exact List.mem_cons_self))
    have hc : s.cflags = [f] := by rw [f1]; simp [posFlags, hf]
    have hn : s.notCflags = [] := by rw [f2]; simp [negFlags]
    have hpp : s.patterns = [] := f4
    have hnum : s.numFlags = 1 := f3
    simp only [hpp, hn, hnum, hr, addSem, ht]
    simp only [ne_eq, not_true_eq_false, false_and, if_false, and_true, true_and]
    rw [if_pos (by rw [hc]; split <;> simp)]
  · have hns : simple cs = none := by
      cases h : simple cs with
      | none => rfl
      | some t => exact absurd ⟨t, h⟩ hs
    have hnot : ¬ (s.cflags ≠ [] ∧ s.numFlags = 1 ∧ s.notCflags = [] ∧ s.patterns = []) := by
      rintro ⟨h1, h2, h3, h4⟩
      apply hs
      rw [f3] at h2
      rw [f4] at h4
      have hp : pats cs = [] := by simpa using h4
      match hac : active cs, h2 with
      | [(n, t)], _ =>
        rw [hac] at f1 f2
        cases n with
        | false => exact ⟨t, by simp only [simple, hac, hp]⟩
        | true => exact absurd (f1.trans (by simp [posFlags])) h1
    have hro : ¬ (s.cflags = [.readonly] ∧ s.patterns = [] ∧ s.numFlags = 1) := by
      rintro ⟨h1, h2, h3⟩
      apply hnot
      refine ⟨by rw [h1]; simp, h3, ?_, h2⟩
      rw [f3] at h3
      match hac : active cs, h3 with
      | [(n, t)], _ =>
        rw [hac] at f1 f2
        cases n with
        | false => rw [f2]; simp [negFlags]
        | true => rw [f1] at h1; simp [posFlags] at h1
    simp only [if_neg hro]
    have hfin : (if s.patterns ≠ [] ∧ s.cflags = [] ∧ s.notCflags = [] ∧ s.everAny = false then [Flag.file] else s.cflags) =
        (if active cs = [] ∧ Cond.any ∉ cs then [Flag.file] else posFlags (active cs)) := by
      by_cases hac : active cs = []
      · have hp : pats cs ≠ [] := hu.1.resolve_left (fun h => h hac)
        have hc : s.cflags = [] := by rw [f1, hac]; rfl
        have hn : s.notCflags = [] := by rw [f2, hac]; rfl
        have hp' : s.patterns ≠ [] := by rw [f4]; simpa using hp
        by_cases ha : Cond.any ∈ cs
        · rw [if_neg (by rw [f5]; simp [ha]), if_neg (by simp [ha]), f1]
        · rw [if_pos ⟨hp', hc, hn, by rw [f5]; simp [ha]⟩, if_pos ⟨hac, ha⟩]
      · rw [if_neg (by
          rintro ⟨_, h1, h2, _⟩
          exact hac (flags_nil hact (f1 ▸ h1) (f2 ▸ h2))), if_neg (fun h => hac h.1), f1]
    rw [hfin]
    have hA : ¬ ((if active cs = [] ∧ Cond.any ∉ cs then [Flag.file] else posFlags (active cs)) ≠ [] ∧ s.numFlags = 1 ∧
        s.notCflags = [] ∧ s.patterns = []) := by
      rintro ⟨h1, h2, h3, h4⟩
      have hne : active cs ≠ [] := by
        intro h; rw [f3, h] at h2; cases h2
      rw [if_neg (fun h => hne h.1), ← f1] at h1
      exact hnot ⟨h1, h2, h3, h4⟩
    rw [if_neg hA]
    have hB : (if active cs = [] ∧ Cond.any ∉ cs then [Flag.file] else posFlags (active cs)) ≠ [] ∨ s.notCflags ≠ [] ∨ s.patterns ≠ [] := by
      rcases hu.1 with h | h
      · by_cases h1 : posFlags (active cs) = []
        · right; left
          intro h2
          exact h (flags_nil hact h1 (f2 ▸ h2))
        · left; rw [if_neg (fun h' => h h'.1)]; exact h1
      · right; right; rw [f4]; simpa using h
    rw [if_pos hB]
    simp only [addSem, hns, ruleOf]
    rw [f2, f4]

/-! ### All items -/

theorem prefixWord_eq : Spec.prefixWord = prefixName := by decide +kernel

theorem prefix_word : textOf (Spec.prefixWord.map Piece.ch) = Spec.prefixWord ∧
    ∀ p ∈ Spec.prefixWord.map Piece.ch, p.ok [61] := by
  refine ⟨by decide +kernel, ?_⟩
  intro p hp
  rw [List.mem_map] at hp
  obtain ⟨c, hc, rfl⟩ := hp
  have : ∀ c ∈ Spec.prefixWord, c ≠ 0 ∧ c ≠ 58 ∧ c ≠ 34 ∧ c ≠ 92 ∧ c ≠ 94 ∧ c ∉ [61] := by decide +kernel
  exact this c hc

theorem tokenAndValue_item {W : Word} {color v u : Text} (a b : Nat) (hW : ∀ p ∈ W, p.ok [61]) (hv : Spec.IsColor color v)
    (hu : Tail u) :
    tokenAndValue (Spec.blanks a ++ textOf W ++ Spec.blanks b ++ 61 :: v ++ u) =
      some (trim (Spec.blanks a ++ textOf W ++ Spec.blanks b), color, u.tail) := by
  have he : Spec.blanks a ++ textOf W ++ Spec.blanks b ++ 61 :: v ++ u =
      textOf (List.replicate a (.ch 32) ++ W ++ List.replicate b (.ch 32)) ++ 61 :: (v ++ u) := by
    rw [textOf_append, textOf_append, textOf_blanks, textOf_blanks]; simp
  have ht : Spec.blanks a ++ textOf W ++ Spec.blanks b = textOf (List.replicate a (.ch 32) ++ W ++ List.replicate b (.ch 32)) := by
    rw [textOf_append, textOf_append, textOf_blanks, textOf_blanks]
  rw [he, ht]
  have hall : ∀ p ∈ List.replicate a (Piece.ch 32) ++ W ++ List.replicate b (Piece.ch 32), p.ok [61] := by
    intro p hp
    simp only [List.mem_append] at hp
    rcases hp with (hp | hp) | hp
    · exact ok_blanks p hp
    · exact hW p hp
    · exact ok_blanks p hp
  obtain ⟨q, hq⟩ := getToken_value hv hu
  unfold tokenAndValue
  simp only [getToken_verbatim hall, hq]
  simp

theorem getLast_blank {core : Text} (h1 : core.getLast? ≠ some 32) (h2 : core.getLast? ≠ some 9)
    (h3 : core.getLast? ≠ some 13) (h4 : core.getLast? ≠ some 10) : ∀ x, core.getLast? = some x → blank4 x = false := by
  intro x hx
  have g1 : x ≠ 32 := fun e => h1 (e ▸ hx)
  have g2 : x ≠ 9 := fun e => h2 (e ▸ hx)
  have g3 : x ≠ 13 := fun e => h3 (e ▸ hx)
  have g4 : x ≠ 10 := fun e => h4 (e ▸ hx)
  simp [blank4, g1, g2, g3, g4]

/-- One item is read and has its effect. -/
theorem item_read {i : Item} {t : Text} (h : Spec.ItemText i t) (hu : Spec.Usable i) {u : Text} (htail : Tail u) :
    t ≠ [] ∧ ∃ token value, tokenAndValue (t ++ u) = some (token, value, u.tail) ∧
      ∀ st, addItem st token value = addSem st i := by
  cases h with
  | @rule cs ws core color v a b hs hw hsp hne h1 h2 h3 h4 hc =>
    refine ⟨by simp, ?_⟩
    obtain ⟨W, hW, hok⟩ := spaced_word hsp hw
    obtain ⟨c, r, hcr, hc1, hc2⟩ := head_spaced hsp hw
    have htr := trim_core a b hcr hc1 hc2 (getLast_blank h1 h2 h3 h4)
    have := tokenAndValue_item a b hok hc htail
    rw [hW, htr] at this
    refine ⟨core, color, this, ?_⟩
    intro st
    unfold addItem
    rw [if_neg (by rw [hcr]; simp), if_neg (by rw [← prefixWord_eq]; exact hne),
      conds_spaced hsp hw (core.length + 1) {} (by omega)]
    show addRule st _ color = _
    rw [says_fold hs {} rfl, addRule_sem hu]
  | @pfx color v a b hc =>
    refine ⟨by simp, ?_⟩
    have := tokenAndValue_item a b prefix_word.2 hc htail
    rw [prefix_word.1, trim_core (c := 114) (r := Spec.prefixWord.tail) a b (by decide +kernel) (by decide) (by decide)
      (by intro x hx; have : Spec.prefixWord.getLast? = some 120 := by decide +kernel
          rw [this] at hx; cases hx; rfl)] at this
    refine ⟨_, color, this, ?_⟩
    intro st
    unfold addItem
    rw [if_neg (by decide +kernel), if_pos prefixWord_eq]
    rfl

/-- What follows the items may stop the reading. -/
def Ends (u : Text) : Prop := u = [] ∨ ∃ bad, u = 58 :: bad ∧ (bad = [] ∨ tokenAndValue bad = none)

theorem Ends.tail {u : Text} (h : Ends u) : Tail u := by
  rcases h with h | ⟨s, h, _⟩
  · exact .inl h
  · exact .inr ⟨s, h⟩

theorem parseLoop_end {n : Nat} {st : State} {l : Text} (h : l = [] ∨ tokenAndValue l = none) : parseLoop n st l = st := by
  cases n with
  | zero => rfl
  | succ n =>
    cases l with
    | nil => rfl
    | cons c l =>
      rcases h with h | h
      · cases h
      · rw [parseLoop, h]

theorem token_colon (l : Text) : tokenAndValue (58 :: l) = none := rfl

theorem parseLoop_ends {n : Nat} {st : State} {u : Text} (h : Ends u) : parseLoop n st u = st ∧ parseLoop n st u.tail = st := by
  rcases h with h | ⟨bad, h, hb⟩ <;> subst h
  · exact ⟨parseLoop_end (.inl rfl), parseLoop_end (.inl rfl)⟩
  · exact ⟨parseLoop_end (.inr (token_colon _)), parseLoop_end hb⟩

theorem parse_written {l : List Item} {s : Text} (h : Spec.Written l s) (hu : ∀ i ∈ l, Spec.Usable i) {u : Text} (he : Ends u) :
    ∀ (n : Nat) (st : State), n > (s ++ u).length → parseLoop n st (s ++ u) = l.foldl addSem st := by
  have one : ∀ {i : Item} {t : Text}, Spec.ItemText i t → Spec.Usable i → ∀ {u : Text}, Tail u → ∀ n st, n > (t ++ u).length →
      ∃ m, m ≥ u.length ∧ parseLoop n st (t ++ u) = parseLoop m (addSem st i) u.tail := by
    intro i t hi hu u ht n st hn
    obtain ⟨hne, token, value, h1, h2⟩ := item_read hi hu ht
    obtain ⟨n, rfl⟩ : ∃ m, n = m + 1 := ⟨n - 1, by omega⟩
    obtain ⟨c, r, rfl⟩ := List.exists_cons_of_ne_nil hne
    refine ⟨n, by simp at hn; omega, ?_⟩
    rw [List.cons_append] at h1 ⊢
    rw [parseLoop]
    simp only [h1, h2]
  induction h with
  | nil => intro n st _; exact (parseLoop_ends he).1
  | @last i t hi =>
    intro n st hn
    obtain ⟨m, _, h⟩ := one hi (hu i List.mem_cons_self) he.tail n st hn
    rw [h, (parseLoop_ends he).2]; rfl
  | @cons i t l s hi _ ih =>
    intro n st hn
    rw [List.append_assoc, List.cons_append] at hn ⊢
    obtain ⟨m, hm, h⟩ := one hi (hu i List.mem_cons_self) (.inr ⟨_, rfl⟩) n st hn
    rw [h, List.tail_cons, ih (fun i' h' => hu i' (List.mem_cons_of_mem _ h')) m _ (by simp at hm ⊢; omega)]
    rfl

end Clink.MatchColors
