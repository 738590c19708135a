import Verif.Spec.Select
import Verif.Proof.Matches
import Verif.Props.MatchWild
import Verif.Props.StrCompare

/-! Selection of matches. -/

namespace Clink.Matches

open StrCompare (isSep)
open Path (AlphaOk trimEnd trimEnd_spec)
open MatchWild (LastComp)
open Spec (plain)

theorem lastComp_unique {l q q' : List Nat} (h : LastComp l q) (h' : LastComp l q') : q = q' := by
  have key : ∀ {l q q' : List Nat}, LastComp l q → LastComp l q' → q'.length ≤ q.length := by
    intro l q q' h h'
    rcases h.2 with rfl | ⟨pre, s, hs, rfl⟩
    · rcases h'.2 with rfl | ⟨pre', s', hs', e⟩
      · exact Nat.le_refl _
      · have := h.1 s' (by rw [e]; simp)
        rw [hs'] at this; cases this
    · rcases h'.2 with rfl | ⟨pre', s', hs', e⟩
      · have := h'.1 s (by simp)
        rw [hs] at this; cases this
      · refine Classical.byContradiction fun hn => ?_
        have h1 : s :: q <:+ s' :: q' := by
          refine List.suffix_of_suffix_length_le (List.suffix_append pre _) (by rw [e]; exact List.suffix_append _ _) (by simp; omega)
        have h2 : s :: q <:+ q' := by
          obtain ⟨w, hw⟩ := h1
          rcases w with _ | ⟨a, w⟩
          · have := congrArg List.length hw; simp at this; omega
          · simp only [List.cons_append, List.cons.injEq] at hw
            exact ⟨w, hw.2⟩
        have := h'.1 s (h2.subset List.mem_cons_self)
        rw [hs] at this; cases this
  have h1 := key h h'
  have h2 := key h' h
  have suf : ∀ {l q : List Nat}, LastComp l q → q <:+ l := by
    intro l q h
    rcases h.2 with rfl | ⟨pre, s, -, rfl⟩
    · exact List.suffix_refl _
    · exact (List.suffix_cons s q).trans (List.suffix_append _ _)
  exact (List.suffix_of_suffix_length_le (suf h) (suf h') (by omega)).eq_of_length (by omega)

theorem trimmed_unique {l t t' : List Nat} (h : Spec.Trimmed l t) (h' : Spec.Trimmed l t') : t = t' := by
  have key : ∀ {l t t' : List Nat}, Spec.Trimmed l t → Spec.Trimmed l t' → t'.length ≤ t.length := by
    rintro l t t' ⟨s, e, hs, hn⟩ ⟨s', e', hs', hn'⟩
    refine Classical.byContradiction fun hlt => hn' ?_
    have hp : t <+: t' := List.prefix_of_prefix_length_le ⟨s, e.symm⟩ ⟨s', e'.symm⟩ (by omega)
    obtain ⟨w, rfl⟩ := hp
    have hw : w ≠ [] := by rintro rfl; simp at hlt
    rw [e, List.append_assoc] at e'
    have hse : s = w ++ s' := List.append_cancel_left e'
    unfold Spec.Ends
    have := hs (w.getLast hw) (by rw [hse]; simp)
    rw [List.getLast?_append, List.getLast?_eq_some_getLast hw]
    simpa using this
  have h1 := key h h'
  have h2 := key h' h
  obtain ⟨s, e, -⟩ := h
  obtain ⟨s', e', -⟩ := h'
  exact (List.prefix_of_prefix_length_le ⟨s, e.symm⟩ ⟨s', e'.symm⟩ (by omega)).eq_of_length (by omega)

theorem trimEnd_drop (q : Nat → Bool) (s : List Nat) (p n : Nat) (h : p ≤ n) : trimEnd q s p n = p + trimEnd q (s.drop p) 0 (n - p) := by
  induction n with
  | zero =>
    have : p = 0 := by omega
    subst this; simp [trimEnd]
  | succ n ih =>
    by_cases hp : p = n + 1
    · subst hp
      rw [trimEnd, if_neg (by omega)]
      simp [trimEnd]
    · have e : n + 1 - p = (n - p) + 1 := by omega
      have e2 : (s.drop p).getD (n - p) 0 = s.getD n 0 := by
        simp only [List.getD_eq_getElem?_getD, List.getElem?_drop]
        congr 2
        omega
      rw [e, trimEnd, trimEnd, e2, ih (by omega)]
      have h1 : p < n + 1 := by omega
      have h2 : 0 < n - p + 1 := by omega
      simp only [h1, h2, true_and]
      split
      · rfl
      · omega

theorem trimEnd_take (q : Nat → Bool) (s : List Nat) (m n : Nat) (h : n ≤ m) : trimEnd q (s.take m) 0 n = trimEnd q s 0 n := by
  induction n with
  | zero => rfl
  | succ n ih =>
    have e : (s.take m).getD n 0 = s.getD n 0 := by
      simp only [List.getD_eq_getElem?_getD]
      rw [List.getElem?_take_of_lt (by omega)]
    rw [trimEnd, trimEnd, e, ih (by omega)]

theorem last_trim (l : List Nat) : LastComp l (l.drop (trimEnd (fun c => !isSep c) l 0 l.length)) := by
  obtain ⟨h1, -, h3, h4⟩ := trimEnd_spec (fun c => !isSep c) l 0 l.length
  obtain ⟨f, hf⟩ : ∃ f, f = trimEnd (fun c => !isSep c) l 0 l.length := ⟨_, rfl⟩
  rw [← hf] at h1 h3 h4 ⊢
  constructor
  · intro c hc
    obtain ⟨k, hk, rfl⟩ := List.getElem_of_mem hc
    simp only [List.length_drop] at hk
    have := h3 (f + k) (by omega) (by omega)
    have hlt : f + k < l.length := by omega
    simpa [List.getElem?_eq_getElem hlt] using this
  · by_cases h0 : f = 0
    · left; rw [h0]; rfl
    · right
      have := h4 (by omega)
      have hlt : f - 1 < l.length := by omega
      refine ⟨l.take (f - 1), l[f - 1], ?_, ?_⟩
      · simpa [List.getElem?_eq_getElem hlt] using this
      · have e : l.drop f = l.drop (f - 1 + 1) := by congr 1; omega
        rw [e, ← List.drop_eq_getElem_cons hlt, List.take_append_drop]

theorem trimmed_trim (l : List Nat) : Spec.Trimmed l (l.take (trimEnd isSep l 0 l.length)) := by
  obtain ⟨h1, -, h3, h4⟩ := trimEnd_spec isSep l 0 l.length
  obtain ⟨f, hf⟩ : ∃ f, f = trimEnd isSep l 0 l.length := ⟨_, rfl⟩
  rw [← hf] at h1 h3 h4 ⊢
  refine ⟨l.drop f, (List.take_append_drop f l).symm, ?_, ?_⟩
  · intro c hc
    obtain ⟨k, hk, rfl⟩ := List.getElem_of_mem hc
    simp only [List.length_drop] at hk
    have := h3 (f + k) (by omega) (by omega)
    have hlt : f + k < l.length := by omega
    simpa [List.getElem?_eq_getElem hlt] using this
  · intro he
    unfold Spec.Ends at he
    by_cases h0 : f = 0
    · rw [h0] at he; simp at he
    · have := h4 (by omega)
      have hlt : f - 1 < l.length := by omega
      rw [List.getLast?_eq_getElem?, List.length_take, Nat.min_eq_left h1, List.getElem?_take_of_lt (by omega), List.getElem?_eq_getElem hlt] at he
      simp [List.getElem?_eq_getElem hlt] at this
      simp [this] at he

/-- Where the drive ends. -/
theorem drive_split {alpha : Nat → Bool} (ha : AlphaOk alpha) {s : List Nat} (hz : 0 ∉ s) :
    ∃ p, Path.pastDrive alpha (Path.cstr s) 0 = some p ∧ p ≤ s.length ∧ Path.Spec.rest alpha s = s.drop p := by
  obtain ⟨p, e, a, l⟩ := Path.pastDrive_to alpha ha.zero (Path.at_cstr hz)
  refine ⟨p, e, by omega, ?_⟩
  obtain ⟨w, hw⟩ := Path.rest_suffix alpha s
  have : w.length = p := by
    have := congrArg List.length hw
    simp at this
    omega
  rw [← this]
  conv => rhs; rw [← hw]
  simp

theorem getName_last {alpha : Nat → Bool} (ha : AlphaOk alpha) {s : List Nat} (hz : 0 ∉ s) :
    ∃ n, Path.getName alpha s = some n ∧ LastComp (Path.Spec.rest alpha s) n := by
  obtain ⟨p, e, hp, hr⟩ := drive_split ha hz
  unfold Path.getName
  rw [e]
  simp only [Option.bind_eq_bind, Option.bind_some, Path.strlen_cstr hz p hp]
  obtain ⟨o, e1, e2⟩ := Path.lastSep_cstr (s := s) p (s.length - p) (by omega)
  rw [e1]
  simp only [Option.bind_some]
  rw [hr]
  cases o with
  | none =>
    refine ⟨_, rfl, ?_, .inl rfl⟩
    intro c hc
    obtain ⟨k, hk, rfl⟩ := List.getElem_of_mem hc
    simp only [List.length_drop] at hk
    have := e2 (p + k) (by omega) (by omega)
    have hlt : p + k < s.length := by omega
    simpa [List.getElem?_eq_getElem hlt] using this
  | some q =>
    obtain ⟨h1, h2, h3, h4⟩ := e2
    have hlt : q < s.length := by omega
    refine ⟨_, rfl, ?_, .inr ⟨(s.drop p).take (q - p), s[q], ?_, ?_⟩⟩
    · intro c hc
      obtain ⟨k, hk, rfl⟩ := List.getElem_of_mem hc
      simp only [List.length_drop] at hk
      have := h4 (q + 1 + k) (by omega) (by omega)
      have hlt : q + 1 + k < s.length := by omega
      simpa [List.getElem?_eq_getElem hlt] using this
    · simpa [List.getElem?_eq_getElem hlt] using h3
    · rw [← List.drop_eq_getElem_cons hlt]
      have : s.drop q = (s.drop p).drop (q - p) := by rw [List.drop_drop]; congr 1; omega
      rw [this, List.take_append_drop]

theorem hidden_iff {alpha : Nat → Bool} (ha : AlphaOk alpha) {s : List Nat} (hz : 0 ∉ s) :
    ∃ b, isUnixHidden alpha s = some b ∧ (b = true ↔ Spec.DotFile alpha s) := by
  obtain ⟨p, e, hp, hr⟩ := drive_split ha hz
  obtain ⟨R, hR⟩ : ∃ R, R = s.drop p := ⟨_, rfl⟩
  have hRl : R.length = s.length - p := by rw [hR]; simp
  obtain ⟨f, hf⟩ : ∃ f, f = trimEnd isSep R 0 R.length := ⟨_, rfl⟩
  obtain ⟨g, hg⟩ : ∃ g, g = trimEnd (fun c => !isSep c) (R.take f) 0 (R.take f).length := ⟨_, rfl⟩
  have hfl : f ≤ R.length := by rw [hf]; exact (trimEnd_spec isSep R 0 R.length).1
  have htl : (R.take f).length = f := by rw [List.length_take, Nat.min_eq_left hfl]
  have hgl : g ≤ f := by
    have := (trimEnd_spec (fun c => !isSep c) (R.take f) 0 (R.take f).length).1
    rw [← hg, htl] at this
    exact this
  have ef : trimEnd isSep s p s.length = p + f := by
    rw [trimEnd_drop _ _ _ _ hp, ← hR, ← hRl, ← hf]
  have eg : trimEnd (fun c => !isSep c) s p (p + f) = p + g := by
    rw [trimEnd_drop _ _ _ _ (by omega), ← hR, Nat.add_sub_cancel_left, hg, htl, trimEnd_take _ _ _ _ (Nat.le_refl _)]
  unfold isUnixHidden
  rw [e]
  simp only [Option.bind_eq_bind, Option.bind_some, ef, eg]
  have hrd : Path.rd (Path.cstr s) (p + g) = some (s.getD (p + g) 0) := Path.rd_cstr (by omega)
  rw [hrd]
  refine ⟨_, rfl, ?_⟩
  rw [decide_eq_true_eq]
  have hsg : s.getD (p + g) 0 = R.getD g 0 := by
    rw [hR]; simp [List.getElem?_drop]
  rw [hsg]
  have htrim : Spec.Trimmed R (R.take f) := by rw [hf]; exact trimmed_trim R
  have hlast : LastComp (R.take f) ((R.take f).drop g) := by rw [hg]; exact last_trim _
  unfold Spec.DotFile
  rw [hr, ← hR]
  have hhead : g < f → ((R.take f).drop g) = R.getD g 0 :: (R.take f).drop (g + 1) := by
    intro hlt
    rw [List.drop_eq_getElem_cons (by omega)]
    congr 1
    simp [List.getElem?_eq_getElem (show g < R.length by omega)]
  constructor
  · intro h46
    have hlt : g < f := by
      refine Classical.byContradiction fun hn => ?_
      have : g = f := by omega
      subst this
      by_cases hl : g < R.length
      · obtain ⟨h1, -, h3, -⟩ := trimEnd_spec isSep R 0 R.length
        rw [← hf] at h3
        have := h3 g (Nat.le_refl _) hl
        rw [h46] at this; cases this
      · rw [List.getD_eq_getElem?_getD, List.getElem?_eq_none (by omega)] at h46
        cases h46
    refine ⟨_, (R.take f).drop (g + 1), htrim, ?_⟩
    rw [← h46, ← hhead hlt]
    exact hlast
  · rintro ⟨t, name, h1, h2⟩
    have := trimmed_unique h1 htrim
    subst this
    have h3 := lastComp_unique h2 hlast
    have hlt : g < f := by
      refine Classical.byContradiction fun hn => ?_
      have := congrArg List.length h3
      simp only [List.length_cons, List.length_drop, htl] at this
      omega
    rw [hhead hlt] at h3
    injection h3 with h3 _
    exact h3.symm

theorem includeHidden_iff {e : Env} (ha : AlphaOk e.alpha) {needle : List Nat} (hz : 0 ∉ needle) :
    ∃ b, e.includeHidden needle = some b ∧ (b = true ↔ e.matchHidden = true ∨ Spec.Dotted e.alpha needle) := by
  obtain ⟨n, h1, h2⟩ := getName_last ha hz
  unfold Env.includeHidden
  rw [h1]
  refine ⟨_, rfl, ?_⟩
  rw [Bool.or_eq_true, decide_eq_true_eq]
  refine or_congr Iff.rfl ?_
  constructor
  · intro h
    rcases n with _ | ⟨c, n⟩
    · cases h
    · simp only [List.head?_cons, Option.some.injEq] at h
      subst h
      exact ⟨n, h2⟩
  · rintro ⟨name, h⟩
    rw [lastComp_unique h2 h]
    rfl

theorem includes_iff (e : Env) (t : MType) :
    e.includes t = true ↔ (t.system = true → e.filesSystem = true) ∧
      (t.system = false → t.hidden = true → e.matchHidden = true ∧ e.filesHidden = true) := by
  unfold Env.includes
  cases t.system <;> cases t.hidden <;> simp

theorem codes_text (it : Iter) (l : List Nat) : ∃ suf, Text it l (codes it l) suf := by
  fun_induction codes it l with
  | case1 l h => exact ⟨l, .nil l, h⟩
  | case2 l h _ ih =>
    obtain ⟨suf, h1, h2⟩ := ih
    exact ⟨suf, .cons (c := it.peek l) (l' := it.adv l) rfl h h1, h2⟩

theorem lcp_prefix (a b : List Nat) : StrCompare.lcp a b = a ↔ a <+: b := by
  induction a generalizing b with
  | nil => cases b <;> simp [StrCompare.lcp]
  | cons x a ih =>
    cases b with
    | nil => simp [StrCompare.lcp]
    | cons y b =>
      rw [StrCompare.lcp]
      by_cases h : x = y
      · subst h
        rw [if_pos rfl, List.cons.injEq, List.prefix_cons_inj, ih]
        simp
      · rw [if_neg h]
        constructor
        · intro h; cases h
        · rintro ⟨w, hw⟩
          injection hw with h1 _
          exact absurd h1 h

theorem steps_nil {it : Iter} {l s : List Nat} (h : Steps it l [] s) : l = s := by
  cases h
  rfl

/-- The comparison consumes the needle exactly if the text begins with it. -/
theorem begins_iff (e : Env) {needle cs : List Nat} (hz : 0 ∉ needle) (hdec : Text Utf.iter8 needle cs []) (info : Info) :
    (decide ((StrCompare.strCompare e.lower Utf.iter8 ⟨e.mode, e.fuzzy, false⟩ false needle info.text).1 < 0) ||
      decide (needle.getD (StrCompare.strCompare e.lower Utf.iter8 ⟨e.mode, e.fuzzy, false⟩ false needle info.text).1.toNat 0 = 0)) = true ↔
    Spec.Begins e needle info := by
  obtain ⟨sr, hr⟩ := codes_text Utf.iter8 info.text
  obtain ⟨ds, hds⟩ : ∃ ds, ds = codes Utf.iter8 info.text := ⟨_, rfl⟩
  rw [← hds] at hr
  obtain ⟨pl, ql, pr, qr, e1, e2, s1, t1, s2, t2, k1, k2, k3, k4⟩ :=
    StrCompare.loop_spec e.lower Utf.iter8 ⟨e.mode, e.fuzzy, false⟩ needle info.text cs ds [] sr hdec hr
  unfold StrCompare.strCompare
  obtain ⟨r, hrr⟩ : ∃ r, r = StrCompare.loop e.lower Utf.iter8 ⟨e.mode, e.fuzzy, false⟩ needle info.text := ⟨_, rfl⟩
  rw [← hrr] at s1 t1 s2 t2 ⊢
  simp only [Bool.false_or]
  have hsuf : ∀ {l cs s : List Nat}, Steps Utf.iter8 l cs s → s <:+ l := by
    intro l cs s h
    exact h.suffix
  have hs1 := hsuf s1
  have hnil : r.1 = [] ↔ ql = [] := by
    constructor
    · intro h
      rw [h] at t1
      exact (t1.nil_inv (by decide)).1
    · intro h
      subst h
      exact steps_nil t1.1
  have hmore : Utf.more r.1 = false ↔ r.1 = [] := by
    rcases hx : r.1 with _ | ⟨c, x⟩
    · simp [Utf.more]
    · have : c ≠ 0 := by rintro rfl; exact hz (hs1.subset (by rw [hx]; simp))
      simp [Utf.more, this]
  have hmain : (decide ((if (Utf.more r.1 || Utf.more r.2) = true then (((needle.length - r.1.length : Nat) : Int), r) else (-1, r)).1 < 0) ||
      decide (needle.getD (if (Utf.more r.1 || Utf.more r.2) = true then (((needle.length - r.1.length : Nat) : Int), r) else (-1, r)).1.toNat 0 = 0)) = true ↔
      r.1 = [] := by
    by_cases hm : (Utf.more r.1 || Utf.more r.2) = true
    · rw [if_pos hm]
      simp only [Int.toNat_natCast, Bool.or_eq_true, decide_eq_true_eq]
      constructor
      · rintro (h | h)
        · omega
        · refine Classical.byContradiction fun hn => ?_
          have hlen : 0 < r.1.length := List.length_pos_iff.2 hn
          have hle := hs1.length_le
          have hlt : needle.length - r.1.length < needle.length := by omega
          rw [List.getD_eq_getElem?_getD, List.getElem?_eq_getElem hlt] at h
          simp only [Option.getD_some] at h
          exact hz (by rw [← h]; exact List.getElem_mem hlt)
      · intro h
        right
        rw [h]
        simp [List.getD_eq_getElem?_getD]
    · rw [if_neg hm]
      simp only [Bool.or_eq_true, not_or, Bool.not_eq_true] at hm
      simp [hmore.1 hm.1]
  rw [hmain, hnil]
  have hkey : ql = [] ↔ StrCompare.key e.lower ⟨e.mode, e.fuzzy, false⟩ cs <+: StrCompare.key e.lower ⟨e.mode, e.fuzzy, false⟩ ds := by
    rw [← lcp_prefix, ← k1]
    constructor
    · intro h; subst h; rw [List.append_nil] at e1; rw [e1]
    · intro h
      rw [k3] at h
      have : StrCompare.key e.lower ⟨e.mode, e.fuzzy, false⟩ ql = [] := by
        have := congrArg List.length h
        simp at this
        exact this
      exact StrCompare.key_eq_nil _ _ _ this
  rw [hkey]
  constructor
  · intro h; exact ⟨cs, ds, sr, hdec, hr, h⟩
  · rintro ⟨cs', ds', sr', h1, h2, h3⟩
    rw [(hdec.unique h1).1, (hr.unique h2).1]
    exact h3

theorem allowed_iff {e : Env} (ha : AlphaOk e.alpha) {needle : List Nat} (hz : 0 ∉ needle) {info : Info} (hi : 0 ∉ info.text) :
    ∃ a b, e.includeHidden needle = some a ∧ isUnixHidden e.alpha info.text = some b ∧
      (((a || !b) && e.includes info.type) = true ↔ Spec.Allowed e needle info) := by
  obtain ⟨a, h1, h2⟩ := includeHidden_iff ha hz
  obtain ⟨b, h3, h4⟩ := hidden_iff ha hi
  refine ⟨a, b, h1, h3, ?_⟩
  unfold Spec.Allowed
  rw [Bool.and_eq_true, includes_iff, Bool.or_eq_true, h2, or_assoc]
  refine and_congr (or_congr Iff.rfl (or_congr Iff.rfl ?_)) Iff.rfl
  rw [← h4]
  cases b <;> simp

theorem prefixSelect_iff {e : Env} (ha : AlphaOk e.alpha) {needle cs : List Nat} (hz : 0 ∉ needle) (hdec : Text Utf.iter8 needle cs []) {info : Info}
    (hi : 0 ∉ info.text) : ∃ b, e.prefixSelect needle info = some b ∧ (b = true ↔ Spec.Allowed e needle info ∧ Spec.Begins e needle info) := by
  obtain ⟨a, b, h1, h2, h3⟩ := allowed_iff ha hz hi
  unfold Env.prefixSelect
  rw [h1, h2]
  refine ⟨_, rfl, ?_⟩
  rw [Bool.and_assoc, Bool.and_eq_true, begins_iff e hz hdec info, h3, and_comm]

theorem patternSelect_iff {e : Env} (ha : AlphaOk e.alpha) (hl : MatchWild.CharsOk e.lower) {pattern : List Nat} (hz : 0 ∉ pattern) {info : Info}
    (hi : 0 ∉ info.text) {infos : List Info} (hm : info.text ∈ infos.map (·.text)) (hp : Spec.PatternOk e pattern infos) :
    ∃ b, e.patternSelect pattern info = some b ∧ (b = true ↔ Spec.Allowed e pattern info ∧ Spec.Instance e pattern info) := by
  obtain ⟨a, b, h1, h2, h3⟩ := allowed_iff ha hz hi
  unfold Env.patternSelect
  rw [h1, h2]
  refine ⟨_, rfl, ?_⟩
  rw [Bool.and_eq_true, h3]
  refine and_congr Iff.rfl ?_
  have htrim := trimmed_trim info.text
  obtain ⟨t, ht⟩ : ∃ t, t = info.text.take (trimEnd isSep info.text 0 info.text.length) := ⟨_, rfl⟩
  rw [← ht] at htrim ⊢
  obtain ⟨r, hr⟩ := codes_text Utf.iter8 pattern
  obtain ⟨r', hr'⟩ := codes_text Utf.iter8 t
  have hargs : ({ lower := e.lower, mode := e.mode, fuzzy := e.fuzzy, dot := e.dotPrefix, me := if info.type.pathish = true then .atEnd else .yes
                  pattern := codes Utf.iter8 pattern, file := codes Utf.iter8 t } : MatchWild.Args) =
      Spec.args e info (codes Utf.iter8 pattern) (codes Utf.iter8 t) := by
    unfold Spec.args MType.pathish
    by_cases h6 : info.type.base = 6 <;> by_cases h7 : info.type.base = 7 <;> simp [h6, h7]
  rw [hargs]
  have hlim := hp.1 _ _ hr
  rw [MatchWild.C08_exact _ hl hlim.1 hlim.2 (hp.2 info.text hm _ _ _ htrim hr')]
  constructor
  · intro h
    exact ⟨t, _, _, r, r', htrim, hr, hr', h⟩
  · rintro ⟨t', cs, ds, q, q', g1, g2, g3, g4⟩
    have := trimmed_unique g1 htrim
    subst this
    obtain ⟨rfl, -⟩ := g2.unique hr
    obtain ⟨rfl, -⟩ := g3.unique hr'
    exact g4

/-- An element that is marked or not. -/
def marked (g : Info → Bool) (i : Info) : Info := { i with select := g i }

theorem runSelector_eq (f : Info → Option Bool) (g : Info → Bool) (infos : List Info) (h : ∀ i ∈ infos, f i = some (g i)) :
    runSelector f infos = some (infos.map (marked g), infos.countP g) := by
  induction infos with
  | nil => rfl
  | cons i infos ih =>
    unfold runSelector
    rw [h i List.mem_cons_self, ih fun j hj => h j (List.mem_cons_of_mem _ hj)]
    simp only [Option.bind_eq_bind, Option.bind_some, Option.pure_def, List.map_cons, Option.some.injEq, Prod.mk.injEq]
    refine ⟨rfl, ?_⟩
    rw [List.countP_cons]
    cases g i <;> simp <;> omega

theorem plainPattern_iff (l : List Nat) : plainPattern l = true ↔ ∃ p n, l = p ++ List.replicate n 42 ∧ 42 ∉ p ∧ 63 ∉ p := by
  induction l with
  | nil => simp only [plainPattern, true_iff]; exact ⟨[], 0, rfl, by simp, by simp⟩
  | cons c l ih =>
    rw [plainPattern]
    by_cases h63 : c = 63
    · rw [if_pos (.inl h63)]
      simp only [Bool.false_eq_true, false_iff]
      rintro ⟨p, n, h1, h2, h3⟩
      rcases p with _ | ⟨a, p⟩
      · cases n with
        | zero => cases h1
        | succ n => rw [List.replicate_succ] at h1; simp at h1; omega
      · injection h1 with h1 _
        exact h3 (by rw [← h1, h63]; simp)
    · by_cases h42 : c = 42
      · subst h42
        by_cases hn : l ≠ [] ∧ l.headD 0 ≠ 42
        · rw [if_pos (.inr ⟨rfl, hn⟩)]
          simp only [Bool.false_eq_true, false_iff]
          rintro ⟨p, n, h1, h2, h3⟩
          rcases p with _ | ⟨a, p⟩
          · cases n with
            | zero => cases h1
            | succ n =>
              rw [List.replicate_succ] at h1
              simp only [List.nil_append, List.cons.injEq, true_and] at h1
              cases n with
              | zero => exact hn.1 h1
              | succ n => rw [h1, List.replicate_succ] at hn; exact hn.2 rfl
          · injection h1 with h1 _
            exact h2 (by rw [← h1]; simp)
        · rw [if_neg (by rintro (h | h); exact h63 h; exact hn h.2), ih]
          constructor
          · rintro ⟨p, n, h1, h2, h3⟩
            have hp : p = [] := by
              rcases p with _ | ⟨a, p⟩
              · rfl
              · exfalso
                apply hn
                rw [h1]
                refine ⟨by simp, ?_⟩
                simp only [List.cons_append, List.headD_cons]
                rintro rfl
                exact h2 (by simp)
            subst hp
            exact ⟨[], n + 1, by rw [h1, List.replicate_succ]; rfl, by simp, by simp⟩
          · rintro ⟨p, n, h1, h2, h3⟩
            rcases p with _ | ⟨a, p⟩
            · cases n with
              | zero => cases h1
              | succ n =>
                rw [List.replicate_succ] at h1
                simp only [List.nil_append, List.cons.injEq, true_and] at h1
                exact ⟨[], n, by rw [h1]; rfl, by simp, by simp⟩
            · injection h1 with h1 _
              exact absurd (by rw [← h1]; simp) h2
      · rw [if_neg (by rintro (h | h); exact h63 h; exact h42 h.1), ih]
        constructor
        · rintro ⟨p, n, h1, h2, h3⟩
          exact ⟨c :: p, n, by rw [h1]; rfl, by simp [h2, Ne.symm h42], by simp [h3, Ne.symm h63]⟩
        · rintro ⟨p, n, h1, h2, h3⟩
          rcases p with _ | ⟨a, p⟩
          · cases n with
            | zero => cases h1
            | succ n => rw [List.replicate_succ] at h1; simp at h1; omega
          · injection h1 with _ h1
            exact ⟨p, n, h1, fun h => h2 (by simp [h]), fun h => h3 (by simp [h])⟩

theorem mayContain_iff (e : Env) (needle : List Nat) : e.canTrySubstring needle = true ↔ Spec.MayContain e needle := by
  unfold Env.canTrySubstring Spec.MayContain
  rcases needle with _ | ⟨c, l⟩
  · simp
  · simp only [Bool.and_eq_true, Bool.or_eq_true, plainPattern_iff, bne_iff_ne, List.head?_cons, ne_eq, Option.some.injEq, reduceCtorEq,
      not_false_eq_true, true_and]
    constructor
    · rintro ⟨⟨⟨h1, h2⟩, h3⟩, h4⟩; exact ⟨h3, h1, h2, h4⟩
    · rintro ⟨h3, h1, h2, h4⟩; exact ⟨⟨⟨h1, h2⟩, h3⟩, h4⟩

theorem inside_iff (needle append pattern : List Nat) : Spec.Inside needle append pattern ↔ pattern = substringPattern needle append := by
  have hlast := last_trim needle
  obtain ⟨f, hf⟩ : ∃ f, f = trimEnd (fun c => !isSep c) needle 0 needle.length := ⟨_, rfl⟩
  unfold substringPattern
  rw [← hf] at hlast ⊢
  constructor
  · rintro ⟨pre, name, h1, h2, h3⟩
    have hn := lastComp_unique h2 hlast
    have hp : pre = needle.take f := by
      have : pre ++ name = needle.take f ++ name := by rw [← h1, hn, List.take_append_drop]
      exact List.append_cancel_right this
    rw [h3, hn, hp]
  · rintro rfl
    exact ⟨needle.take f, needle.drop f, (List.take_append_drop f needle).symm, hlast, rfl⟩

theorem inside_clean {needle append pattern : List Nat} (h : Spec.Inside needle append pattern) (hz : 0 ∉ needle) (ha : 0 ∉ append) : 0 ∉ pattern := by
  obtain ⟨pre, name, rfl, -, rfl⟩ := h
  simp only [List.mem_append, not_or, List.mem_cons] at hz ⊢
  simp [hz, ha]

/-! Bringing the selected elements to the front. -/

theorem swap_eq (P U R : List Info) (u x : Info) :
    swap (P ++ u :: U ++ x :: R) (P.length + (U.length + 1)) P.length = P ++ x :: U ++ u :: R := by
  unfold swap
  rw [if_neg (by omega)]
  have h1 : (P ++ u :: U ++ x :: R)[P.length + (U.length + 1)]? = some x := by
    rw [List.append_assoc, List.getElem?_append_right (by omega), Nat.add_sub_cancel_left, List.getElem?_append_right (by simp)]
    simp
  have h2 : (P ++ u :: U ++ x :: R)[P.length]? = some u := by
    rw [List.append_assoc, List.getElem?_append_right (Nat.le_refl _)]
    simp
  rw [h1, h2]
  simp only
  rw [List.append_assoc, List.set_append_right _ _ (Nat.le_refl _), Nat.sub_self, List.cons_append, List.set_cons_zero,
    List.set_append_right _ _ (by omega), Nat.add_sub_cancel_left, List.set_cons_succ, List.set_append_right _ _ (Nat.le_refl _), Nat.sub_self,
    List.set_cons_zero]
  simp

theorem coalesceLoop_spec (hint : Nat) (P U R : List Info) (any all : Bool) (hU : ∀ i ∈ U, i.select = false)
    (hh : P.length + R.countP (·.select) ≤ hint) :
    ∃ U', coalesceLoop hint (P ++ U ++ R) (P.length + U.length) P.length any all =
        (P ++ R.filter (·.select) ++ U', P.length + R.countP (·.select),
          any || (R.filter (·.select)).any (·.type.pathish), all && (R.filter (·.select)).all (·.type.pathish)) ∧
      U'.Perm (U ++ R.filter fun i => !i.select) := by
  induction R generalizing P U any all with
  | nil =>
    refine ⟨U, ?_, by simp⟩
    rw [coalesceLoop, dif_neg (by simp)]
    simp
  | cons x R ih =>
    cases hx : x.select with
    | false =>
      have hc : (x :: R).countP (·.select) = R.countP (·.select) := by rw [List.countP_cons_of_neg (by simp [hx])]
      rw [hc] at hh ⊢
      have hfil : (x :: R).filter (·.select) = R.filter (·.select) := by rw [List.filter_cons_of_neg (by simp [hx])]
      rw [hfil]
      rw [coalesceLoop]
      by_cases hj : P.length < hint
      · rw [dif_pos (by simp; omega)]
        have hget : (P ++ U ++ x :: R)[P.length + U.length]'(by simp) = x := by
          rw [List.getElem_append_right (by simp)]
          simp
        simp only [hget, hx, Bool.false_eq_true, if_false]
        obtain ⟨U', h1, h2⟩ := ih P (U ++ [x]) any all (by
          intro i hi
          simp only [List.mem_append, List.mem_singleton] at hi
          rcases hi with hi | rfl
          · exact hU i hi
          · exact hx) hh
        refine ⟨U', ?_, ?_⟩
        · rw [← h1]
          congr 1
          · simp
          · simp
            omega
        · rw [List.append_assoc] at h2
          rw [List.filter_cons_of_pos (by simp [hx])]
          exact h2
      · have h0 : R.countP (·.select) = 0 := by omega
        have hf0 : R.filter (·.select) = [] := by
          rw [List.countP_eq_length_filter] at h0
          exact List.length_eq_zero_iff.1 h0
        rw [dif_neg (by omega)]
        refine ⟨U ++ x :: R, by rw [h0, hf0]; simp, ?_⟩
        have hall : (x :: R).filter (fun i => !i.select) = x :: R := by
          rw [List.filter_eq_self]
          intro i hi
          rcases List.mem_cons.1 hi with rfl | hi
          · simp [hx]
          · have := List.filter_eq_nil_iff.1 hf0 i hi
            simpa using this
        rw [hall]
    | true =>
      have hc : (x :: R).countP (·.select) = R.countP (·.select) + 1 := by rw [List.countP_cons_of_pos hx]
      rw [hc] at hh ⊢
      have hfil : (x :: R).filter (·.select) = x :: R.filter (·.select) := by rw [List.filter_cons_of_pos hx]
      have hfiln : (x :: R).filter (fun i => !i.select) = R.filter fun i => !i.select := by rw [List.filter_cons_of_neg (by simp [hx])]
      rw [hfil, hfiln]
      rw [coalesceLoop, dif_pos (by simp; omega)]
      have hget : (P ++ U ++ x :: R)[P.length + U.length]'(by simp) = x := by
        rw [List.getElem_append_right (by simp)]
        simp
      simp only [hget, hx, if_true]
      rcases U with _ | ⟨u, U⟩
      · obtain ⟨U', h1, h2⟩ := ih (P ++ [x]) [] (any || x.type.pathish) (all && x.type.pathish) (by simp) (by simp; omega)
        refine ⟨U', ?_, by simpa using h2⟩
        have hsw : swap (P ++ [] ++ x :: R) (P.length + ([] : List Info).length) P.length = P ++ [x] ++ [] ++ R := by
          unfold swap
          rw [if_pos (by simp)]
          simp
        rw [hsw]
        have hl : (P ++ [x]).length = P.length + 1 := by simp
        rw [hl] at h1
        have e1 : P.length + ([] : List Info).length + 1 = P.length + 1 + ([] : List Info).length := by simp
        rw [e1, h1]
        simp only [List.any_cons, List.all_cons, Bool.or_assoc, Bool.and_assoc, Prod.mk.injEq, and_true]
        exact ⟨by simp, by omega⟩
      · have hsw := swap_eq P U R u x
        have e0 : (P ++ u :: U ++ x :: R) = P ++ (u :: U) ++ x :: R := rfl
        rw [List.length_cons, hsw]
        obtain ⟨U', h1, h2⟩ := ih (P ++ [x]) (U ++ [u]) (any || x.type.pathish) (all && x.type.pathish) (by
          intro i hi
          simp only [List.mem_append, List.mem_singleton] at hi
          rcases hi with hi | rfl
          · exact hU i (by simp [hi])
          · exact hU i (by simp)) (by simp; omega)
        refine ⟨U', ?_, ?_⟩
        · have hl : (P ++ [x]).length = P.length + 1 := by simp
          have hl2 : (U ++ [u]).length = U.length + 1 := by simp
          rw [hl, hl2] at h1
          have e1 : P ++ [x] ++ (U ++ [u]) ++ R = P ++ x :: U ++ u :: R := by simp
          have e2 : P.length + (U.length + 1) + 1 = P.length + 1 + (U.length + 1) := by omega
          rw [e1] at h1
          rw [e2, h1]
          simp only [List.any_cons, List.all_cons, Bool.or_assoc, Bool.and_assoc, Prod.mk.injEq, and_true]
          exact ⟨by simp, by omega⟩
        · refine h2.trans ?_
          rw [List.append_assoc, List.cons_append]
          exact List.perm_middle

end Clink.Matches
