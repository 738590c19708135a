import Verif.Spec.Matches
import Verif.Props.PathJoin

/-! Adding matches. -/

namespace Clink.Matches

open StrCompare (isSep)
open Path (AlphaOk)

theorem bareDrive_eq {alpha : Nat → Bool} (ha : AlphaOk alpha) {d : List Nat} (hz : 0 ∉ d) :
    Path.bareDrive alpha d = some (Spec.bareDrive alpha d) := by
  have hat := Path.at_cstr hz
  unfold Path.bareDrive
  obtain ⟨o, e, ho⟩ := Path.isUnc_to hat
  rw [e]
  simp only [Option.bind_eq_bind, Option.bind_some]
  have key : Spec.bareDrive alpha d = (match Path.Spec.uncRest d with
      | some _ => false
      | none => match (Path.Spec.afterSsqs d).getD d with | [c, 58] => alpha c | _ => false) := by
    unfold Spec.bareDrive
    split
    · rename_i c
      cases hc : isSep c
      · have : Path.Spec.uncRest [c, 58] = none := by simp [Path.Spec.uncRest, hc]
        simp [this, Path.Spec.afterSsqs]
      · have h1 : alpha c = false := ha.sep c hc
        rw [h1]
        split
        · rfl
        · simp [Path.Spec.afterSsqs, h1]
    · rename_i a b d r
      cases hs : (isSep a && isSep b && isSep d) with
      | false =>
        simp only [Bool.false_and]
        split
        · rfl
        · have : Path.Spec.afterSsqs (a :: b :: 63 :: d :: r) = none := by simp [Path.Spec.afterSsqs, hs]
          rw [this]
          simp
      | true =>
        have h3 : (isSep a = true ∧ isSep b = true) ∧ isSep d = true := by simpa using hs
        have hq : Path.Spec.afterSsqs (a :: b :: 63 :: d :: r) = some (Path.Spec.afterSeps r) := by simp [Path.Spec.afterSsqs, hs]
        have hu : Path.Spec.uncRest (a :: b :: 63 :: d :: r) = (Path.Spec.afterUncWord (Path.Spec.afterSeps r)).map Path.Spec.afterShare := by
          have hd : Path.Spec.deviceLike (Path.Spec.afterSeps (63 :: d :: r)) = false := by
            simp [Path.Spec.afterSeps, isSep, Path.Spec.deviceLike]
          unfold Path.Spec.uncRest
          simp only [h3.1.1, h3.1.2, Bool.and_self, if_true, hd, Bool.false_eq_true, if_false, hq]
        rw [hq, hu]
        simp only [Bool.true_and, Option.getD_some]
        show (match Path.Spec.afterSeps r with | [c, 58] => alpha c | _ => false) = _
        generalize Path.Spec.afterSeps r = x
        cases hx : Path.Spec.afterUncWord x with
        | none => simp
        | some y =>
          simp only [Option.map_some]
          unfold Path.Spec.afterUncWord at hx
          split at hx
          · simp
          · simp at hx
    · rename_i h1 h2
      split
      · rfl
      · have : Path.Spec.afterSsqs d = none := by
          unfold Path.Spec.afterSsqs
          split
          · exact absurd rfl (fun h => h2 _ _ _ _ h)
          · rfl
        rw [this]
        simp only [Option.getD_none]
  rw [key]
  cases hu : Path.Spec.uncRest d with
  | some r =>
    rw [hu] at ho
    obtain ⟨q, rfl, -⟩ := ho
    rfl
  | none =>
    rw [hu] at ho
    simp only at ho
    subst ho
    simp only [Path.pastSsqs_at hat, Option.bind_some]
    have hsuf : (Path.Spec.afterSsqs d).getD d <:+ d := by
      cases hr : Path.Spec.afterSsqs d with
      | none => exact List.suffix_refl _
      | some r => exact Path.afterSsqs_suffix hr
    have hat2 := hat.suffix hsuf
    rw [Nat.zero_add] at hat2
    generalize d.length - ((Path.Spec.afterSsqs d).getD d).length = q at *
    generalize (Path.Spec.afterSsqs d).getD d = R at *
    rw [hat2.rd0]
    simp only [Option.bind_some]
    rcases R with _ | ⟨c, R⟩
    · simp [ha.zero]
    · show (if alpha c = true then _ else (some false : Option Bool)) = _
      have hm : (match c :: R with | [c, 58] => alpha c | _ => false) = (alpha c && R == [58]) := by
        split
        · rename_i h
          cases h
          simp
        · rename_i h
          rcases R with _ | ⟨x, _ | ⟨y, R⟩⟩
          · simp
          · by_cases hx : x = 58
            · subst hx; exact absurd rfl (h c)
            · simp [hx]
          · simp
      rw [hm]
      clear key hm
      by_cases hc : alpha c = true
      · rw [if_pos hc]
        rw [hat2.rd (i := 1) (by simp)]
        simp only [Option.bind_some]
        rcases R with _ | ⟨f, R⟩
        · simp
        · by_cases hf : f = 58
          · subst hf
            rw [hat2.rd (i := 2) (by simp)]
            rcases R with _ | ⟨g, R⟩
            · simp [hc]
            · have : g ≠ 0 := by
                intro h; exact hz (hsuf.subset (by simp [h]))
              simp [this]
          · simp [hf]
      · rw [if_neg hc]
        simp [hc]

theorem append_empty {alpha : Nat → Bool} (ha : AlphaOk alpha) {d : List Nat} (hz : 0 ∉ d) (hne : d ≠ []) :
    Path.append alpha d [] = some (if Spec.Ends d ∨ Spec.bareDrive alpha d = true then d else d ++ [92]) := by
  unfold Path.append
  have hroot : Path.isRooted alpha [] = some false := by
    obtain ⟨q, e, a, -⟩ := Path.pastDrive_to alpha ha.zero (Path.at_cstr (s := []) (by simp))
    unfold Path.isRooted
    rw [e]
    simp only [Option.bind_eq_bind, Option.bind_some]
    rw [a.rd0]
    simp only [Option.bind_some, Option.pure_def, Option.some.injEq]
    cases hr : Path.Spec.rest alpha [] with
    | nil => rfl
    | cons c l => have := (Path.rest_suffix alpha []).subset (a := c) (by rw [hr]; simp); simp at this
  rw [hroot]
  simp only [Option.bind_eq_bind, Option.bind_some, Bool.false_eq_true, if_false]
  cases hl : d.getLast? with
  | none => exact absurd (List.getLast?_eq_none_iff.1 hl) hne
  | some c =>
    have he : Spec.Ends d ↔ isSep c = true := by unfold Spec.Ends; rw [hl]; simp
    rw [bareDrive_eq ha hz]
    have r0 : Path.rd (Path.cstr []) 0 = some 0 := rfl
    simp only [Option.bind_some, Option.pure_def, r0]
    have i0 : isSep 0 = false := rfl
    cases hc : isSep c <;> cases hb : Spec.bareDrive alpha d <;> simp [he, hc, i0]

theorem endsWithSep_iff (text : List Nat) : endsWithSep text = true ↔ Spec.Ends text := by
  unfold endsWithSep Spec.Ends
  cases text.getLast? <;> simp [isSep]

theorem normSep (sep : Nat) (t : List Nat) : Path.normaliseSeparators sep t = t.map fun c => if isSep c then sep else c := by
  induction t with
  | nil => rfl
  | cons c t ih =>
    rw [Path.normaliseSeparators, ih, List.map_cons]
    congr 1
    by_cases h : isSep c = true
    · by_cases hc : c = sep
      · simp [h, hc]
      · simp [h, hc]
    · simp [h]

theorem matchText_meant {alpha : Nat → Bool} (ha : AlphaOk alpha) (mode sep : Nat) (files already : Bool) {text : List Nat} (hz : 0 ∉ text)
    (hne : text ≠ []) (type : MType) :
    ∃ t, matchText alpha mode sep files already text (matchType text type) = some t ∧
      Spec.Meant alpha mode sep files already text type ⟨t, matchType text type⟩ := by
  have hk : matchType text type = if Spec.Ends text ∧ type.base = 1 ∧ type.hist = false then { type with base := 7 } else type := by
    unfold matchType
    by_cases h : Spec.Ends text ∧ type.base = 1 ∧ type.hist = false
    · rw [if_pos h, if_pos (by simp [(endsWithSep_iff text).2 h.1, h.2.1, h.2.2])]
    · rw [if_neg h, if_neg]
      intro h2
      simp only [Bool.and_eq_true, beq_iff_eq, Bool.not_eq_true'] at h2
      exact h ⟨(endsWithSep_iff text).1 h2.1.1, h2.1.2, h2.2⟩
  obtain ⟨ty, hty⟩ : ∃ ty, ty = matchType text type := ⟨_, rfl⟩
  rw [← hty]
  rw [← hty] at hk
  obtain ⟨t, e1, e2⟩ : ∃ t, (if ty.base == 7 && !endsWithSep text then Path.append alpha text [] else some text) = some t ∧
      (if ty.base = 7 ∧ ¬ Spec.Ends text ∧ Spec.bareDrive alpha text = false then t = text ++ [92] else t = text) := by
    rw [append_empty ha hz hne]
    by_cases h1 : ty.base = 7
    · by_cases h2 : Spec.Ends text
      · exact ⟨text, by simp [(endsWithSep_iff text).2 h2], by simp [h2]⟩
      · have h3 : endsWithSep text = false := by
          cases h : endsWithSep text with
          | false => rfl
          | true => exact absurd ((endsWithSep_iff text).1 h) h2
        cases h4 : Spec.bareDrive alpha text with
        | true => exact ⟨text, by simp, by simp⟩
        | false => exact ⟨text ++ [92], by simp [h1, h2, h3], by simp [h1, h2]⟩
    · exact ⟨text, by simp [h1], by simp [h1]⟩
  have htr : mustTranslate mode files already ty = true ↔
      (2 ≤ mode ∨ (mode = 1 ∧ already = false)) ∧ (ty.base = 7 ∨ ty.base = 6 ∨ (ty.base = 1 ∧ files = true ∧ ty.hist = true)) := by
    unfold mustTranslate
    simp only [Bool.and_eq_true, Bool.or_eq_true, decide_eq_true_eq, beq_iff_eq, Bool.not_eq_true']
    constructor
    · rintro ⟨⟨h1, h2⟩, h3⟩
      refine ⟨?_, ?_⟩
      · by_cases h : 2 ≤ mode
        · exact .inl h
        · exact .inr ⟨by omega, h2.resolve_left (by omega)⟩
      · rcases h3 with (h | h) | h
        · exact .inl h
        · exact .inr (.inl h)
        · exact .inr (.inr ⟨h.1.1, h.1.2, h.2⟩)
    · rintro ⟨h1, h2⟩
      refine ⟨⟨by omega, ?_⟩, ?_⟩
      · rcases h1 with h | h
        · exact .inl (by omega)
        · exact .inr h.2
      · rcases h2 with h | h | h
        · exact .inl (.inl h)
        · exact .inl (.inr h)
        · exact .inr ⟨⟨h.1, h.2.1⟩, h.2.2⟩
  have hsep : translationSep mode sep = (if mode = 2 then 47 else if mode = 4 ∧ sep ≠ 0 then sep else 92) := by
    unfold translationSep
    by_cases h2 : mode = 2
    · simp [h2]
    · by_cases h3 : mode = 3
      · simp [h3]
      · by_cases h4 : mode = 4
        · by_cases h5 : sep = 0 <;> simp [h4, h5]
        · simp [h2, h3, h4]
  refine ⟨_, by unfold matchText; rw [e1]; rfl, hk, t, e2, ?_⟩
  by_cases h : mustTranslate mode files already ty = true
  · simp only
    rw [if_pos h, if_pos (htr.1 h), normSep, hsep]
  · simp only
    rw [if_neg h, if_neg (fun h2 => h (htr.2 h2))]

theorem equalLookup_iff (a b : Lookup) : equalLookup a b = true ↔ Spec.Same ⟨a.1, a.2⟩ ⟨b.1, b.2⟩ := by
  unfold equalLookup Spec.Same
  simp only [Bool.and_eq_true, Bool.or_eq_true, decide_eq_true_eq]
  constructor
  · rintro ⟨h1, h2⟩; exact ⟨h2, h1⟩
  · rintro ⟨h1, h2⟩; exact ⟨h2, h1⟩

theorem Same.symm {a b : Spec.Entry} (h : Spec.Same a b) : Spec.Same b a :=
  ⟨h.1.symm, h.2.elim (fun x => .inl x.symm) (fun x => .inr x.symm)⟩

/-- While matches are added. -/
structure Building (s : State) : Prop where
  open_ : s.coalesced = false
  dedup : ∀ l : Lookup, l ∈ s.dedup ↔ ∃ i ∈ s.infos, l = (i.text, i.type)
  apart : s.dedup.Pairwise fun a b => ¬ equalLookup a b = true
  pairwise : s.infos.Pairwise fun a b => ¬ Spec.Same (Spec.entry a) (Spec.entry b)
  ordinals : ∀ n (h : n < s.infos.length), s.infos[n].ordinal = n
  count : s.count = s.infos.length % 65536
  none_ : ∀ i ∈ s.infos, i.type.base = 1 → s.anyNone = true
  select : ∀ i ∈ s.infos, i.select = false

theorem building_start (sep : Nat) (old : Bool) : Building (Spec.start sep old) :=
  ⟨rfl, by simp [Spec.start], List.Pairwise.nil, List.Pairwise.nil, by simp [Spec.start], rfl, by simp [Spec.start], by simp [Spec.start]⟩

theorem found_iff {s : State} (h : Building s) (l : Lookup) :
    s.dedup.any (equalLookup l) = true ↔ ∃ i ∈ s.infos, Spec.Same (Spec.entry i) ⟨l.1, l.2⟩ := by
  rw [List.any_eq_true]
  constructor
  · rintro ⟨x, hx, he⟩
    obtain ⟨i, hi, rfl⟩ := (h.dedup x).1 hx
    exact ⟨i, hi, Same.symm ((equalLookup_iff _ _).1 he)⟩
  · rintro ⟨i, hi, he⟩
    exact ⟨(i.text, i.type), (h.dedup _).2 ⟨i, hi, rfl⟩, (equalLookup_iff _ _).2 (Same.symm he)⟩

theorem stored_eq (x : Option (List Nat)) : stored x = if x = some [] then none else x := by
  rcases x with _ | ⟨_ | ⟨c, l⟩⟩ <;> simp [stored]

/-- One match is added. -/
theorem add_spec {alpha : Nat → Bool} (ha : AlphaOk alpha) (mode : Nat) {s : State} (h : Building s) (d : Desc) (already : Bool)
    (hz : ∀ t, d.text = some t → 0 ∉ t) :
    (d.text = none ∨ d.text = some [] → s.add alpha mode d already = some (s, false)) ∧
    (∀ text, d.text = some text → text ≠ [] → ∃ e, Spec.Meant alpha mode s.sep s.completion.get already text d.type e ∧
      (((∃ i ∈ s.infos, Spec.Same (Spec.entry i) e) ∧ s.add alpha mode d already = some (s, false)) ∨
       ((∀ i ∈ s.infos, ¬ Spec.Same (Spec.entry i) e) ∧ ∃ s' info, s.add alpha mode d already = some (s', true) ∧
          s'.infos = s.infos ++ [info] ∧ Spec.Shows info s.infos.length d e ∧ Building s' ∧ s'.sep = s.sep ∧ s'.completion = s.completion ∧
          s'.deprecated = s.deprecated))) := by
  constructor
  · rintro (hd | hd) <;> simp [State.add, h.open_, hd]
  · intro text hd hne
    obtain ⟨t, e1, e2⟩ := matchText_meant ha mode s.sep s.completion.get already (hz text hd) hne d.type
    obtain ⟨ty, hty⟩ : ∃ ty, ty = matchType text d.type := ⟨_, rfl⟩
    rw [← hty] at e1 e2
    refine ⟨⟨t, ty⟩, e2, ?_⟩
    have hadd : s.add alpha mode d already = some (if s.dedup.any (equalLookup (t, ty)) then (s, false)
      else
        ({ s with
            infos := s.infos ++ [{ text := t, display := stored d.display, description := stored d.description, ordinal := s.infos.length
                                   type := ty, appendChar := d.appendChar, suppress := d.suppress
                                   appendDisplay := d.appendDisplay && (stored d.display).isSome
                                   customDisplay := if d.missing then 1 else if (stored d.display).isSome then -1 else 0, select := false }]
            count := (s.count + 1) % 65536, anyNone := s.anyNone || ty.base == 1
            dedup := (t, ty) :: s.dedup, hasDescriptions := s.hasDescriptions || (stored d.description).isSome }, true)) := by
      unfold State.add
      rw [h.open_, hd]
      rcases text with _ | ⟨c, text⟩
      · exact absurd rfl hne
      · simp only
        rw [← hty, e1]
        rfl
    rw [hadd]
    by_cases hf : s.dedup.any (equalLookup (t, ty)) = true
    · left
      exact ⟨(found_iff h _).1 hf, by rw [if_pos hf]⟩
    · right
      have hno : ∀ i ∈ s.infos, ¬ Spec.Same (Spec.entry i) ⟨t, ty⟩ := fun i hi hs => hf ((found_iff h (t, ty)).2 ⟨i, hi, hs⟩)
      rw [if_neg hf]
      refine ⟨hno, _, _, rfl, rfl, ?_, ?_, rfl, rfl, rfl⟩
      · exact ⟨rfl, rfl, rfl, stored_eq _, stored_eq _, rfl, rfl, by
          simp only [Bool.and_eq_true, Option.isSome_iff_ne_none]⟩
      · refine ⟨h.open_, ?_, ?_, ?_, ?_, ?_, ?_, ?_⟩
        · intro l
          simp only [List.mem_cons, List.mem_append, List.not_mem_nil, or_false]
          constructor
          · rintro (rfl | hl)
            · exact ⟨_, .inr rfl, rfl⟩
            · obtain ⟨i, hi, rfl⟩ := (h.dedup l).1 hl
              exact ⟨i, .inl hi, rfl⟩
          · rintro ⟨i, hi | rfl, rfl⟩
            · exact .inr ((h.dedup _).2 ⟨i, hi, rfl⟩)
            · exact .inl rfl
        · refine List.pairwise_cons.2 ⟨fun l hl he => hf ?_, h.apart⟩
          exact List.any_eq_true.2 ⟨l, hl, he⟩
        · refine List.pairwise_append.2 ⟨h.pairwise, List.pairwise_singleton _ _, ?_⟩
          intro a ha b hb
          simp only [List.mem_singleton] at hb
          subst hb
          exact hno a ha
        · intro n hn
          simp only [List.length_append, List.length_singleton] at hn
          by_cases hlt : n < s.infos.length
          · rw [List.getElem_append_left hlt]; exact h.ordinals n hlt
          · have : n = s.infos.length := by omega
            subst this
            simp
        · simp only [List.length_append, List.length_singleton, h.count]
          omega
        · intro i hi hb
          simp only [List.mem_append, List.mem_singleton] at hi
          rcases hi with hi | rfl
          · simp [h.none_ i hi hb]
          · simp only at hb
            simp [hb]
        · intro i hi
          simp only [List.mem_append, List.mem_singleton] at hi
          rcases hi with hi | rfl
          · exact h.select i hi
          · rfl

/-- The matches to keep if there already are some. -/
def KeepsFrom (prior : List Spec.Entry) (es : List (Option (Desc × Spec.Entry))) (keep : List Bool) : Prop :=
  keep.length = es.length ∧
    ∀ i : Nat, keep[i]? = some true ↔
      ∃ (d : Desc) (e : Spec.Entry), es[i]? = some (some (d, e)) ∧ (∀ f ∈ prior, ¬ Spec.Same f e) ∧
        ∀ (j : Nat) (d' : Desc) (f : Spec.Entry), j < i → keep[j]? = some true → es[j]? = some (some (d', f)) → ¬ Spec.Same f e

theorem keepsFrom_none {prior : List Spec.Entry} {es keep} (h : KeepsFrom prior es keep) : KeepsFrom prior (none :: es) (false :: keep) := by
  refine ⟨by simp [h.1], fun i => ?_⟩
  cases i with
  | zero => simp
  | succ i =>
    rw [List.getElem?_cons_succ, h.2 i]
    constructor
    · rintro ⟨d, e, h1, h2, h3⟩
      refine ⟨d, e, h1, h2, fun j d' f hj hk he => ?_⟩
      cases j with
      | zero => simp at hk
      | succ j => exact h3 j d' f (by omega) hk he
    · rintro ⟨d, e, h1, h2, h3⟩
      exact ⟨d, e, h1, h2, fun j d' f hj hk he => h3 (j + 1) d' f (by omega) hk he⟩

theorem keepsFrom_drop {prior : List Spec.Entry} {es keep} {d : Desc} {e : Spec.Entry} (h : KeepsFrom prior es keep)
    (hs : ∃ f ∈ prior, Spec.Same f e) : KeepsFrom prior (some (d, e) :: es) (false :: keep) := by
  refine ⟨by simp [h.1], fun i => ?_⟩
  cases i with
  | zero =>
    simp only [List.getElem?_cons_zero, Option.some.injEq, Bool.false_eq_true, Prod.mk.injEq, false_iff]
    rintro ⟨_, _, ⟨rfl, rfl⟩, h2, -⟩
    obtain ⟨f, hf, hs⟩ := hs
    exact h2 f hf hs
  | succ i =>
    rw [List.getElem?_cons_succ, h.2 i]
    constructor
    · rintro ⟨d, e, h1, h2, h3⟩
      refine ⟨d, e, h1, h2, fun j d' f hj hk he => ?_⟩
      cases j with
      | zero => simp at hk
      | succ j => exact h3 j d' f (by omega) hk he
    · rintro ⟨d, e, h1, h2, h3⟩
      exact ⟨d, e, h1, h2, fun j d' f hj hk he => h3 (j + 1) d' f (by omega) hk he⟩

theorem keepsFrom_keep {prior : List Spec.Entry} {es keep} {d : Desc} {e : Spec.Entry} (h : KeepsFrom (prior ++ [e]) es keep)
    (hs : ∀ f ∈ prior, ¬ Spec.Same f e) : KeepsFrom prior (some (d, e) :: es) (true :: keep) := by
  refine ⟨by simp [h.1], fun i => ?_⟩
  cases i with
  | zero =>
    simp only [List.getElem?_cons_zero, Option.some.injEq, Prod.mk.injEq, true_iff]
    exact ⟨d, e, ⟨rfl, rfl⟩, hs, fun j _ _ hj => absurd hj (Nat.not_lt_zero _)⟩
  | succ i =>
    rw [List.getElem?_cons_succ, h.2 i]
    constructor
    · rintro ⟨d1, e1, h1, h2, h3⟩
      refine ⟨d1, e1, h1, fun f hf => h2 f (by simp [hf]), fun j d' f hj hk he => ?_⟩
      cases j with
      | zero =>
        simp only [List.getElem?_cons_zero, Option.some.injEq, Prod.mk.injEq] at he
        rw [← he.2]
        exact h2 e (by simp)
      | succ j => exact h3 j d' f (by omega) hk he
    · rintro ⟨d1, e1, h1, h2, h3⟩
      refine ⟨d1, e1, h1, fun f hf => ?_, fun j d' f hj hk he => h3 (j + 1) d' f (by omega) hk he⟩
      simp only [List.mem_append, List.mem_singleton] at hf
      rcases hf with hf | rfl
      · exact h2 f hf
      · exact h3 0 d f (by omega) rfl rfl

theorem chosen_cons_true (x : Option (Desc × Spec.Entry)) (es keep) : Spec.chosen (x :: es) (true :: keep) = x.toList ++ Spec.chosen es keep := by
  cases x <;> simp [Spec.chosen]

theorem chosen_cons_false (x : Option (Desc × Spec.Entry)) (es keep) : Spec.chosen (x :: es) (false :: keep) = Spec.chosen es keep := by
  simp [Spec.chosen]

/-- No text that is added contains a NUL. -/
def Clean (ops : List Spec.Op) : Prop := ∀ d already text, Spec.Op.add d already ∈ ops → d.text = some text → 0 ∉ text

theorem run_spec {alpha : Nat → Bool} (ha : AlphaOk alpha) (ops : List Spec.Op) (hz : Clean ops) (mode : Nat) (s : State) (h : Building s) :
    ∃ s' keep es infos, Spec.run alpha mode s ops = some (s', keep) ∧ Spec.Offers alpha s.sep mode s.completion.get ops es ∧
      KeepsFrom (s.infos.map Spec.entry) es keep ∧ s'.infos = s.infos ++ infos ∧ Building s' ∧
      infos.length = (Spec.chosen es keep).length ∧
      (∀ n info d e, infos[n]? = some info → (Spec.chosen es keep)[n]? = some (d, e) → Spec.Shows info (s.infos.length + n) d e) := by
  induction ops generalizing mode s with
  | nil =>
    refine ⟨s, [], [], [], rfl, .nil, ⟨rfl, ?_⟩, by simp, h, rfl, by simp⟩
    intro i
    simp
  | cons op ops ih =>
    have hz' : Clean ops := fun d al t hm => hz d al t (List.mem_cons_of_mem _ hm)
    cases op with
    | files b =>
      have hb : Building (s.setFiles b) := ⟨h.open_, h.dedup, h.apart, h.pairwise, h.ordinals, h.count, h.none_, h.select⟩
      obtain ⟨s', keep, es, infos, h1, h2, h3⟩ := ih hz' mode _ hb
      exact ⟨s', keep, es, infos, h1, .files (by simpa [State.setFiles, Shadow.get] using h2), h3⟩
    | slashes m =>
      obtain ⟨s', keep, es, infos, h1, h2, h3⟩ := ih hz' m s h
      exact ⟨s', keep, es, infos, h1, .slashes h2, h3⟩
    | add d already =>
      have hsp := add_spec ha mode h d already (fun t ht => hz d already t List.mem_cons_self ht)
      by_cases hd : d.text = none ∨ d.text = some []
      · obtain ⟨s', keep, es, infos, h1, h2, h3, h4, h5, h6, h7⟩ := ih hz' mode s h
        refine ⟨s', false :: keep, none :: es, infos, ?_, .empty hd h2, keepsFrom_none h3, h4, h5, ?_, ?_⟩
        · simp only [Spec.run, hsp.1 hd, Option.bind_some, h1, Option.map_some]
        · rw [chosen_cons_false]; exact h6
        · rw [chosen_cons_false]; exact h7
      · obtain ⟨text, ht, hne⟩ : ∃ t, d.text = some t ∧ t ≠ [] := by
          cases hx : d.text with
          | none => exact absurd (.inl hx) hd
          | some t => exact ⟨t, rfl, fun hn => hd (.inr (by rw [hx, hn]))⟩
        obtain ⟨e, hm, ⟨hs, hr⟩ | ⟨hs, s1, info, hr, hi, hsh, hb, hsep, hcomp, -⟩⟩ := hsp.2 text ht hne
        · obtain ⟨s', keep, es, infos, h1, h2, h3, h4, h5, h6, h7⟩ := ih hz' mode s h
          refine ⟨s', false :: keep, some (d, e) :: es, infos, ?_, .add ht hne hm h2, keepsFrom_drop h3 ?_, h4, h5, ?_, ?_⟩
          · simp only [Spec.run, hr, Option.bind_some, h1, Option.map_some]
          · obtain ⟨i, hi, hs⟩ := hs
            exact ⟨_, List.mem_map.2 ⟨i, hi, rfl⟩, hs⟩
          · rw [chosen_cons_false]; exact h6
          · rw [chosen_cons_false]; exact h7
        · obtain ⟨s', keep, es, infos, h1, h2, h3, h4, h5, h6, h7⟩ := ih hz' mode s1 hb
          have he : Spec.entry info = e := by
            unfold Spec.entry; rw [hsh.text, hsh.type]
          refine ⟨s', true :: keep, some (d, e) :: es, info :: infos, ?_, .add ht hne hm (by rw [hsep, hcomp] at h2; exact h2), keepsFrom_keep ?_ ?_, ?_, h5, ?_, ?_⟩
          · simp only [Spec.run, hr, Option.bind_some, h1, Option.map_some]
          · rw [hi, List.map_append] at h3
            simpa [he] using h3
          · intro f hf
            obtain ⟨i, hi, rfl⟩ := List.mem_map.1 hf
            exact hs i hi
          · rw [h4, hi]; simp
          · rw [chosen_cons_true]; simp [h6]
          · rw [chosen_cons_true]
            intro n i d' e' g1 g2
            cases n with
            | zero =>
              simp only [List.getElem?_cons_zero, Option.some.injEq, Option.toList_some, List.cons_append, List.nil_append,
                Prod.mk.injEq] at g1 g2
              obtain ⟨rfl, rfl⟩ := g2
              rw [← g1]; exact hsh
            | succ n =>
              have := h7 n i d' e' g1 g2
              rw [hi] at this
              simp only [List.length_append, List.length_singleton] at this
              have e : s.infos.length + 1 + n = s.infos.length + (n + 1) := by omega
              rw [e] at this
              exact this

/-! Unknown matches. -/

/-- A match that is looked up in the file system. -/
def Unknown (i : Info) : Prop := i.type.base = 1 ∧ i.type.hist = false

instance (i : Info) : Decidable (Unknown i) := inferInstanceAs (Decidable (_ ∧ _))

structure Inv (infos : List Info) (dd : List Lookup) : Prop where
  dedup : ∀ l : Lookup, l ∈ dd ↔ ∃ i ∈ infos, l = (i.text, i.type)
  apart : dd.Pairwise fun a b => ¬ equalLookup a b = true
  pairwise : infos.Pairwise fun a b => ¬ Spec.Same (Spec.entry a) (Spec.entry b)

/-- A list in which no two are the same, without one of them. -/
theorem erase_inv {A B : List Info} {info : Info} {dedup : List Lookup} (h : Inv (A ++ info :: B) dedup) :
    Inv (A ++ B) (dedup.eraseP (equalLookup (info.text, info.type))) := by
  have hp := List.pairwise_append.1 h.pairwise
  have hq := List.pairwise_cons.1 hp.2.1
  have hself : ∀ l : Lookup, equalLookup l l = true := fun l => by simp [equalLookup]
  refine ⟨fun l => ?_, h.apart.sublist List.eraseP_sublist, ?_⟩
  · have hmem : (info.text, info.type) ∈ dedup := (h.dedup _).2 ⟨info, by simp, rfl⟩
    obtain ⟨a, l1, l2, hn, ha, e1, e2⟩ := List.exists_of_eraseP hmem (hself _)
    have hal : a = (info.text, info.type) := by
      have hin : a ∈ dedup := by rw [e1]; simp
      obtain ⟨i, hi, rfl⟩ := (h.dedup a).1 hin
      have hs := (equalLookup_iff _ _).1 ha
      simp only [List.mem_append, List.mem_cons] at hi
      rcases hi with hi | rfl | hi
      · exact absurd (Same.symm hs) (hp.2.2 i hi info List.mem_cons_self)
      · rfl
      · exact absurd hs (hq.1 i hi)
    rw [e2]
    have hap := h.apart
    rw [e1] at hap
    have hap1 := List.pairwise_append.1 hap
    have hap2 := List.pairwise_cons.1 hap1.2.1
    constructor
    · intro hl
      have hl' : l ∈ dedup := by
        rw [e1]; simp only [List.mem_append, List.mem_cons] at hl ⊢; rcases hl with h | h <;> simp [h]
      obtain ⟨i, hi, rfl⟩ := (h.dedup l).1 hl'
      refine ⟨i, ?_, rfl⟩
      simp only [List.mem_append, List.mem_cons] at hi ⊢
      rcases hi with hi | rfl | hi
      · exact .inl hi
      · exfalso
        simp only [List.mem_append] at hl
        rcases hl with hl | hl
        · exact hap1.2.2 _ hl a List.mem_cons_self (by rw [hal]; exact hself _)
        · exact hap2.1 _ hl (by rw [hal]; exact hself _)
      · exact .inr hi
    · rintro ⟨i, hi, rfl⟩
      have hin : (i.text, i.type) ∈ dedup := (h.dedup _).2 ⟨i, by simp only [List.mem_append, List.mem_cons] at hi ⊢; rcases hi with h | h <;> simp [h], rfl⟩
      rw [e1] at hin
      simp only [List.mem_append, List.mem_cons] at hin ⊢
      rcases hin with h1 | h1 | h1
      · exact .inl h1
      · exfalso
        rw [hal] at h1
        have hsame : Spec.Same (Spec.entry i) (Spec.entry info) := by
          unfold Spec.entry
          injection h1 with h1 h2
          rw [h1, h2]
          exact ⟨rfl, .inl rfl⟩
        simp only [List.mem_append] at hi
        rcases hi with hi | hi
        · exact hp.2.2 i hi info List.mem_cons_self hsame
        · exact hq.1 i hi (Same.symm hsame)
      · exact .inr h1
  · exact h.pairwise.sublist (List.Sublist.append_left (List.sublist_cons_self _ _) _)

theorem inv_found {infos : List Info} {dedup : List Lookup} (h : Inv infos dedup) (l : Lookup) :
    dedup.any (equalLookup l) = true ↔ ∃ i ∈ infos, Spec.Same (Spec.entry i) ⟨l.1, l.2⟩ := by
  rw [List.any_eq_true]
  constructor
  · rintro ⟨x, hx, he⟩
    obtain ⟨i, hi, rfl⟩ := (h.dedup x).1 hx
    exact ⟨i, hi, Same.symm ((equalLookup_iff _ _).1 he)⟩
  · rintro ⟨i, hi, he⟩
    exact ⟨(i.text, i.type), (h.dedup _).2 ⟨i, hi, rfl⟩, (equalLookup_iff _ _).2 (Same.symm he)⟩

theorem insert_inv {A B : List Info} {info : Info} {dedup : List Lookup} (h : Inv (A ++ B) dedup)
    (hn : ¬ dedup.any (equalLookup (info.text, info.type)) = true) : Inv (A ++ info :: B) ((info.text, info.type) :: dedup) := by
  have hno : ∀ i ∈ A ++ B, ¬ Spec.Same (Spec.entry i) (Spec.entry info) := fun i hi hs => hn ((inv_found h _).2 ⟨i, hi, hs⟩)
  refine ⟨fun l => ?_, List.pairwise_cons.2 ⟨fun l hl he => hn (List.any_eq_true.2 ⟨l, hl, he⟩), h.apart⟩, ?_⟩
  · rw [List.mem_cons, h.dedup l]
    simp only [List.mem_append, List.mem_cons]
    constructor
    · rintro (rfl | ⟨i, hi, rfl⟩)
      · exact ⟨info, by simp, rfl⟩
      · exact ⟨i, by rcases hi with h | h <;> simp [h], rfl⟩
    · rintro ⟨i, hi | rfl | hi, rfl⟩
      · exact .inr ⟨i, .inl hi, rfl⟩
      · exact .inl rfl
      · exact .inr ⟨i, .inr hi, rfl⟩
  · have hp := List.pairwise_append.1 h.pairwise
    refine List.pairwise_append.2 ⟨hp.1, List.pairwise_cons.2 ⟨fun b hb hs => hno b (by simp [hb]) (Same.symm hs), hp.2.1⟩, ?_⟩
    intro a ha b hb
    rcases List.mem_cons.1 hb with rfl | hb
    · exact hno a (by simp [ha])
    · exact hp.2.2 a ha b hb

theorem fixLoop_spec {probe : List Nat → MType} (hp : Spec.ProbeOk probe) (sep : Nat) (n : Nat) (s : State) (A B : List Info)
    (hs : s.infos = A ++ B) (hn : A.length = n) (h : Inv s.infos s.dedup) :
    ∃ s' M, s.fixLoop probe sep n = some s' ∧ s'.infos = M ++ B ∧ M.Sublist (A.map (Spec.fix probe sep)) ∧ Inv s'.infos s'.dedup ∧
      (∀ i ∈ A, ¬ Unknown i → i ∈ M) ∧ (∀ i ∈ A, ∃ j ∈ s'.infos, Spec.Same (Spec.entry j) (Spec.fixed probe sep (Spec.entry i))) ∧
      s' = { s with infos := s'.infos, dedup := s'.dedup } := by
  induction n generalizing s A B with
  | zero =>
    have : A = [] := List.length_eq_zero_iff.1 hn
    subst this
    exact ⟨s, [], rfl, hs, by simp, h, by simp, by simp, rfl⟩
  | succ n ih =>
    obtain ⟨A', info, rfl⟩ : ∃ A' info, A = A' ++ [info] := by
      rcases List.eq_nil_or_concat A with h | ⟨l, a, h⟩
      · subst h; simp at hn
      · exact ⟨l, a, by rw [h, List.concat_eq_append]⟩
    have hlen : A'.length = n := by simpa using hn
    have hs2 : s.infos = A' ++ info :: B := by rw [hs]; simp
    have hget : s.infos[n]? = some info := by rw [hs2, List.getElem?_append_right (by omega), ← hlen]; simp
    unfold State.fixLoop
    rw [hget]
    simp only
    by_cases hu : Unknown info
    · have hc : (info.type.base == 1 && !info.type.hist) = true := by simp [hu.1, hu.2]
      rw [if_pos hc]
      obtain ⟨ded, hded⟩ : ∃ x, x = s.dedup.eraseP (equalLookup (info.text, info.type)) := ⟨_, rfl⟩
      have hinv : Inv (A' ++ B) ded := by rw [hded]; rw [hs2] at h; exact erase_inv h
      have hfx : Spec.fixed probe sep (Spec.entry info) =
          ⟨if (probe info.text).base = 7 ∧ sep ≠ 0 then info.text ++ [sep] else info.text, probe info.text⟩ := by
        unfold Spec.fixed
        rw [if_pos]
        · rfl
        · exact hu
      obtain ⟨x, hx⟩ : ∃ x, x = Spec.fix probe sep info := ⟨_, rfl⟩
      have hxt : (if ((probe info.text).base == 7 && decide (sep ≠ 0)) = true then info.text ++ [sep] else info.text) = x.text := by
        rw [hx]
        simp only [Spec.fix, hfx]
        by_cases h1 : (probe info.text).base = 7 <;> by_cases h2 : sep = 0 <;> simp [h1, h2]
      have hxy : probe info.text = x.type := by
        rw [hx]
        simp only [Spec.fix, hfx]
      have hxe : Spec.entry x = Spec.fixed probe sep (Spec.entry info) := by rw [hx]; rfl
      have hxi : { info with text := x.text, type := x.type } = x := by
        rw [hx]; rfl
      rw [hxt, hxy, ← hded]
      have hxn : ¬ Unknown x := by
        intro hx2
        unfold Unknown at hx2
        rw [← hxy] at hx2
        exact (hp info.text).2 hx2.1
      by_cases hf : ded.any (equalLookup (x.text, x.type)) = true
      · rw [if_pos hf]
        have he : s.infos.eraseIdx n = A' ++ B := by
          rw [hs2, List.eraseIdx_append_of_length_le (by omega), hlen]; simp
        obtain ⟨s', M, h1, h2, h3, h4, h5, h6, h7⟩ := ih { s with infos := s.infos.eraseIdx n, dedup := ded } A' B he hlen (by rw [he]; exact hinv)
        refine ⟨s', M, h1, h2, ?_, h4, ?_, ?_, ?_⟩
        · rw [List.map_append]; exact h3.trans (List.sublist_append_left _ _)
        · intro i hi hni
          simp only [List.mem_append, List.mem_singleton] at hi
          rcases hi with hi | rfl
          · exact h5 i hi hni
          · exact absurd hu hni
        · intro i hi
          simp only [List.mem_append, List.mem_singleton] at hi
          rcases hi with hi | rfl
          · exact h6 i hi
          · obtain ⟨j, hj, hsame⟩ := (inv_found hinv _).1 hf
            refine ⟨j, ?_, by rw [← hxe]; exact hsame⟩
            rw [h2]
            simp only [List.mem_append] at hj ⊢
            rcases hj with hj | hj
            · refine .inl (h5 j hj ?_)
              intro hju
              have : x.type.hist = false := by rw [← hxy]; exact (hp _).1
              rcases hsame.2 with h8 | h8 | h8
              · apply hxn
                unfold Unknown
                have h9 : j.type = x.type := h8
                rw [← h9]; exact hju
              · have h9 : j.type.hist = true := h8
                rw [hju.2] at h9; cases h9
              · simp only at h8
                rw [this] at h8; cases h8
            · exact .inr hj
        · rw [h7]
      · rw [if_neg hf, hxi]
        have he : s.infos.set n x = A' ++ x :: B := by
          rw [hs2, List.set_append_right _ _ (by omega), hlen]; simp
        obtain ⟨s', M, h1, h2, h3, h4, h5, h6, h7⟩ := ih { s with infos := s.infos.set n x, dedup := (x.text, x.type) :: ded } A' (x :: B) he hlen
          (by rw [he]; exact insert_inv hinv hf)
        refine ⟨s', M ++ [x], h1, by rw [h2]; simp, ?_, h4, ?_, ?_, ?_⟩
        · rw [List.map_append, hx]; exact h3.append (List.Sublist.refl _)
        · intro i hi hni
          simp only [List.mem_append, List.mem_singleton] at hi ⊢
          rcases hi with hi | rfl
          · exact .inl (h5 i hi hni)
          · exact absurd hu hni
        · intro i hi
          simp only [List.mem_append, List.mem_singleton] at hi
          rcases hi with hi | rfl
          · exact h6 i hi
          · exact ⟨x, by rw [h2]; simp, by rw [hxe]; exact ⟨rfl, .inl rfl⟩⟩
        · rw [h7]
    · have hc : ¬ (info.type.base == 1 && !info.type.hist) = true := by
        intro hc
        simp only [Bool.and_eq_true, beq_iff_eq, Bool.not_eq_true'] at hc
        exact hu hc
      rw [if_neg hc]
      obtain ⟨s', M, h1, h2, h3, h4, h5, h6, h7⟩ := ih s A' (info :: B) hs2 hlen h
      have hfe : Spec.fixed probe sep (Spec.entry info) = Spec.entry info := by
        unfold Spec.fixed; rw [if_neg]; exact hu
      have hfi : Spec.fix probe sep info = info := by
        unfold Spec.fix; rw [hfe]; rfl
      refine ⟨s', M ++ [info], h1, by rw [h2]; simp, ?_, h4, ?_, ?_, h7⟩
      · rw [List.map_append]
        simp only [List.map_cons, List.map_nil, hfi]
        exact h3.append (List.Sublist.refl _)
      · intro i hi hni
        simp only [List.mem_append, List.mem_singleton] at hi ⊢
        rcases hi with hi | rfl
        · exact .inl (h5 i hi hni)
        · exact .inr rfl
      · intro i hi
        simp only [List.mem_append, List.mem_singleton] at hi
        rcases hi with hi | rfl
        · exact h6 i hi
        · exact ⟨i, by rw [h2]; simp, by rw [hfe]; exact ⟨rfl, .inl rfl⟩⟩

end Clink.Matches
