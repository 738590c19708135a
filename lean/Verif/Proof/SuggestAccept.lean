import Verif.Proof.SuggestInsert
/- Proofs for C52: accepting a suggestion. -/
namespace Clink.Suggest
open Clink StrCompare Spec
open Clink.Utf (specUtf8 IsText)

/-! ### The accepted text -/

section
variable {cfg : Cfg} {t s : List Nat} {k r : Nat}

theorem prefix_take {x y : List Nat} (h : x <+: y) : x = y.take x.length := List.prefix_iff_eq_take.1 h

theorem Spec.Fits.le (h : Fits cfg t s k) : t.length - k ≤ s.length := by
  have := h.2.length_le
  simpa using this

theorem Spec.Fits.slice (h : Fits cfg t s k) (hr : k ≤ r) (hrt : r ≤ t.length) :
    ((t.take r).drop k).map (cls cfg) = (s.take (r - k)).map (cls cfg) := by
  have h1 := prefix_take h.2
  have h2 := congrArg (List.take (r - k)) h1
  rw [List.take_take, List.length_map, List.length_drop, Nat.min_eq_left (by omega)] at h2
  rw [List.drop_take, List.map_take, h2, List.map_take]

theorem accepted_take (hr : r ≤ t.length) {i : Nat} (hi : i ≤ r) : (accepted cfg t s k r).take i = t.take i := by
  unfold accepted shown
  split
  · rw [List.take_append_of_le_length (by simp; omega), List.take_take, Nat.min_eq_left hi]
  · rw [List.take_append_of_le_length (by omega)]

theorem accepted_drop (hk : k ≤ r) (hr : r ≤ t.length) : (accepted cfg t s k r).drop t.length = s.drop (t.length - k) := by
  unfold accepted shown
  split
  · have e : (t.take r).length = r := by simp; omega
    rw [List.drop_append, e, List.drop_eq_nil_of_le (by omega), List.nil_append, List.drop_drop]
    congr 1; omega
  · rw [List.drop_left]

/-- It is the suggestion, up to case and accents, behind the start of the line. -/
theorem accepted_cls (hf : Fits cfg t s k) (hk : k ≤ r) (hr : r ≤ t.length) :
    ((accepted cfg t s k r).drop k).map (cls cfg) = s.map (cls cfg) := by
  unfold accepted shown
  split
  · have e : (t.take r).length = r := by simp; omega
    rw [List.drop_append_of_le_length (by omega), List.map_append, hf.slice hk hr, ← List.map_append, List.take_append_drop]
  · rw [List.drop_append_of_le_length (by omega), List.map_append]
    have := hf.slice (r := t.length) (by omega) (Nat.le_refl _)
    rw [List.take_length] at this
    rw [this, ← List.map_append, List.take_append_drop]

theorem accepted_length (hf : Fits cfg t s k) (hk : k ≤ r) (hr : r ≤ t.length) :
    (accepted cfg t s k r).length = k + s.length := by
  have h := congrArg List.length (accepted_cls hf hk hr)
  rw [List.length_map, List.length_map, List.length_drop] at h
  have h2 := congrArg List.length (accepted_take (cfg := cfg) (s := s) (k := k) hr (i := k) hk)
  rw [List.length_take, List.length_take] at h2
  omega

theorem accepted_txt (ht : Txt t) (hs : Txt s) : Txt (accepted cfg t s k r) := by
  unfold accepted shown
  split
  · exact (ht.take _).append (hs.drop _)
  · exact ht.append (hs.drop _)

theorem accepted_shown (hf : Fits cfg t s k) (hk : k ≤ r) (hr : r ≤ t.length) :
    (accepted cfg t s k r).map (cls cfg) = (shown t s k).map (cls cfg) := by
  have h1 := accepted_cls hf hk hr
  have h2 : ((shown t s k).drop k).map (cls cfg) = s.map (cls cfg) := by
    have := accepted_cls (cfg := { cfg with originalCase := false }) (r := r) hf hk hr
    exact this
  rw [← List.take_append_drop k (accepted cfg t s k r), ← List.take_append_drop k (shown t s k), List.map_append,
    List.map_append, h1, h2, accepted_take hr hk]
  unfold shown
  rw [List.take_append_of_le_length (by omega)]

/-- Accepting the rest later gives the same. -/
theorem accepted_again (hf : Fits cfg t s k) (hk : k ≤ r) (hr : r ≤ t.length) {p : Nat} (hp : t.length ≤ p) (hp' : p ≤ k + s.length) :
    accepted cfg ((accepted cfg t s k r).take p) s k r = accepted cfg t s k r := by
  have hlen := accepted_length hf hk hr
  have hdrop : (accepted cfg t s k r).drop p = s.drop (p - k) := by
    have := congrArg (List.drop (p - t.length)) (accepted_drop (cfg := cfg) (s := s) hk hr)
    rw [List.drop_drop, List.drop_drop] at this
    rw [show t.length + (p - t.length) = p by omega, show t.length - k + (p - t.length) = p - k by omega] at this
    exact this
  have htl : ((accepted cfg t s k r).take p).length = p := by rw [List.length_take]; omega
  generalize hA : accepted cfg t s k r = A at hdrop hlen htl
  by_cases ho : cfg.originalCase = true
  · rw [accepted, if_pos ho, List.take_take, Nat.min_eq_left (by omega)]
    conv => rhs; rw [← hA, accepted, if_pos ho]
    congr 1
    rw [← hA]; exact accepted_take hr (Nat.le_refl _)
  · rw [accepted, if_neg ho, shown, htl, ← hdrop, List.take_append_drop]

end

/-! ### Quotes -/

theorem spec_last_quote {c : Nat} : (specUtf8 c).getLast? = some 34 ↔ c = 34 := by
  unfold specUtf8
  split
  · simp
  · split
    · simp; omega
    · split
      · simp; omega
      · simp; omega

theorem quote_before (t : List Nat) (e : Nat) (h0 : 0 < e) (he : e ≤ t.length) :
    ((u8 t).getD ((u8 (t.take e)).length - 1) 0 == 34) = (t.getD (e - 1) 0 == 34) := by
  have hlt : e - 1 < t.length := by omega
  have h1 : t.take e = t.take (e - 1) ++ [t[e - 1]] := by
    conv => lhs; rw [show e = e - 1 + 1 by omega]
    rw [List.take_succ_eq_append_getElem hlt]
  have h2 : u8 t = u8 (t.take e) ++ u8 (t.drop e) := by rw [← u8_append, List.take_append_drop]
  have hpos : 0 < (u8 (t.take e)).length := len_pos (by rw [h1]; exact List.append_ne_nil_of_right_ne_nil _ (by simp))
  have h3 : (u8 t)[(u8 (t.take e)).length - 1]? = (specUtf8 t[e - 1]).getLast? := by
    rw [h2, List.getElem?_append_left (by omega), ← List.getLast?_eq_getElem?, h1, u8_append]
    have : u8 [t[e - 1]] = specUtf8 t[e - 1] := by simp [u8]
    rw [this, List.getLast?_append]
    cases hg : (specUtf8 t[e - 1]).getLast? with
    | none => exact absurd (List.getLast?_eq_none_iff.1 hg) (Utf.specUtf8_ne_nil _)
    | some x => rfl
  rw [List.getD_eq_getElem?_getD, h3, List.getD_eq_getElem?_getD, List.getElem?_eq_getElem hlt]
  have := @spec_last_quote t[e - 1]
  rw [Bool.eq_iff_iff, beq_iff_eq, beq_iff_eq, Option.getD_some, ← this]
  cases (specUtf8 t[e - 1]).getLast? <;> simp

/-- The quotes tracked. -/
def quoteAt (t : List Nat) (k e : Nat) : Bool :=
  if (t.drop (max e k)).count 34 % 2 = 1 then !(decide (0 < e) && t.getD (e - 1) 0 == 34) else decide (0 < e) && t.getD (e - 1) 0 == 34

theorem quoteAt_eq {t : List Nat} {k e : Nat} (he : e ≤ t.length) (hk : k ≤ t.length) (hq : 34 ∉ (t.take k).drop e) :
    quoteAt t k e = inQuotes t e := by
  have h1 : (t.drop e).count 34 = (t.drop (max e k)).count 34 := by
    by_cases h : k ≤ e
    · rw [Nat.max_eq_left h]
    · rw [Nat.max_eq_right (by omega)]
      have : t.drop e = (t.take k).drop e ++ t.drop k := by
        conv => lhs; rw [← List.take_append_drop k t]
        rw [List.drop_append_of_le_length (by simp; omega)]
      rw [this, List.count_append, List.count_eq_zero.2 hq]; simp
  unfold quoteAt inQuotes
  rw [← h1]
  by_cases h0 : e = 0
  · subst h0; rw [Bool.eq_iff_iff]; simp
  · have hlt : e - 1 < t.length := by omega
    have h2 : t.drop (e - 1) = t[e - 1] :: t.drop e := by
      rw [List.drop_eq_getElem_cons hlt, show e - 1 + 1 = e by omega]
    rw [h2, List.count_cons, List.getD_eq_getElem?_getD, List.getElem?_eq_getElem hlt, Option.getD_some]
    have h3 : decide (0 < e) = true := by simp; omega
    rw [h3, Bool.true_and]
    by_cases hc : t[e - 1] = 34
    · simp only [hc, beq_self_eq_true, if_true]
      rcases Nat.mod_two_eq_zero_or_one ((t.drop e).count 34) with h | h
      · rw [h, if_neg (by omega)]; symm; rw [beq_iff_eq]; omega
      · rw [if_pos h]; symm; simp; omega
    · have hc' : (t[e - 1] == 34) = false := by simpa using hc
      rw [hc']
      rcases Nat.mod_two_eq_zero_or_one ((t.drop e).count 34) with h | h
      · simp [h]
      · simp [h]

/-! ### Insert -/

theorem insert_ready {cfg : Cfg} (hok : LowerOk cfg.lower) {m : Mgr} {b : Buf} {t s : List Nat} {k e : Nat}
    (R : Ready cfg m b t s k e) (act : Action) (ha : ¬ (cfg.originalCase = true ∧ act = .toEnd ∧ k = 0)) :
    ∃ src, m.items = [⟨u8 s, (u8 (t.take k)).length, src⟩] ∧
      insert cfg act m b = accept cfg act m b ⟨u8 s, (u8 (t.take k)).length, src⟩ (u8 (t.take (max e k))).length
        (u8 (s.drop (max e k - k))) (u8 (s.drop (t.length - k))) (quoteAt t k e) := by
  obtain ⟨src, hi⟩ := R.items
  refine ⟨src, hi, ?_⟩
  obtain ⟨on1, on2, on3⟩ := R.on
  obtain ⟨ht, hs⟩ := R.txt
  obtain ⟨he, hm⟩ := R.endword
  have hk := R.fits.1
  have hb := R.buf
  subst hb
  have hr : max e k ≤ t.length := by omega
  have hmore : Utf.more m.iter = true := by
    rw [R.iter, more_u8 (hs.drop _)]
    intro h
    have := congrArg List.length h
    have := R.longer
    simp at *
    omega
  unfold insert
  have hcase : (cfg.originalCase && decide (act = .toEnd) && decide ((u8 (t.take k)).length = 0)) = false := by
    rw [Bool.eq_false_iff]
    intro h
    simp only [Bool.and_eq_true, decide_eq_true_eq] at h
    apply ha
    refine ⟨h.1.1, h.1.2, ?_⟩
    have h2 := List.eq_nil_of_length_eq_zero h.2
    rw [u8_eq_nil] at h2
    have := congrArg List.length h2
    rw [List.length_take, List.length_nil] at this
    omega
  have hcmp : (if (u8 (t.take k)).length < m.endword then
      cmp cfg (((u8 t).drop (u8 (t.take k)).length).take (m.endword - (u8 (t.take k)).length)) (u8 s) else ([], u8 s)) =
      (([], u8 (s.drop (max e k - k))) : List Nat × List Nat) := by
    rw [hm]
    by_cases h : k < e
    · rw [if_pos (len_lt t h he), slice_u8 t (by omega)]
      have hp : ((t.take e).drop k).map (cls cfg) <+: s.map (cls cfg) := by
        rw [R.fits.slice (by omega) he]
        exact (List.take_prefix _ _).map _
      rw [cmp_fits hok ((ht.take _).drop _) hs R.plain hp, Nat.max_eq_left (by omega)]
      congr 3
      simp; omega
    · have := len_mono t (show e ≤ k by omega)
      rw [if_neg (by omega), Nat.max_eq_right (by omega), Nat.sub_self, List.drop_zero]
  have hrep : max m.endword (u8 (t.take k)).length = (u8 (t.take (max e k))).length := by
    rw [hm]
    by_cases h : k ≤ e
    · rw [Nat.max_eq_left (len_mono t h), Nat.max_eq_left h]
    · rw [Nat.max_eq_right (len_mono t (by omega)), Nat.max_eq_right (by omega)]
  have hq : (decide (m.endword > 0) && (u8 t).getD (m.endword - 1) 0 == 34) = (decide (0 < e) && t.getD (e - 1) 0 == 34) := by
    rw [hm]
    by_cases h0 : e = 0
    · subst h0; simp [u8]
    · rw [quote_before t e (by omega) he]
      have : 0 < (u8 (t.take e)).length := len_pos (by
        intro h
        have := congrArg List.length h
        rw [List.length_take, List.length_nil] at this
        omega)
      have h1 : decide ((u8 (t.take e)).length > 0) = true := by simpa using this
      have h2 : decide (0 < e) = true := by simp; omega
      rw [h1, h2]
  have hub : ¬ (m.endword > (u8 t).length ∨ (u8 (t.take k)).length > (u8 t).length) := by
    have := len_le t k
    have := len_le t e
    omega
  simp only [on1, on2, on3, hi, hmore, hcase, hcmp, hrep, hq]
  simp only [Bool.not_true, Bool.or_self, Bool.false_eq_true, if_false, ne_eq, not_true, decide_false]
  rw [if_neg hub, drop_u8, follow_u8 (ht.drop _) (hs.drop _) _ _ _ (by
    have h1 := len_take_drop t (max e k)
    have h2 := len_mono t (show k ≤ max e k by omega)
    omega)]
  have hmo : ¬ Utf.more [] = true := by simp [Utf.more]
  rw [if_neg hmo]
  dsimp only
  rw [List.drop_drop, show max e k - k + (t.drop (max e k)).length = t.length - k by simp; omega]
  rfl

/-- What `accept` puts into the line. -/
theorem accept_text {cfg : Cfg} {t s : List Nat} {k r : Nat} (hk : k ≤ r) (hr : r ≤ t.length) :
    ((Buf.removeFrom ⟨u8 t, (u8 t).length⟩ (if cfg.originalCase then (u8 (t.take r)).length else (u8 t).length)).insert
      (if cfg.originalCase then u8 (s.drop (r - k)) else u8 (s.drop (t.length - k)))) =
    ⟨u8 (accepted cfg t s k r), (u8 (accepted cfg t s k r)).length⟩ := by
  unfold Buf.removeFrom Buf.insert accepted shown
  cases cfg.originalCase
  · simp [u8_append]
  · simp only [if_true, take_u8, u8_append]
    have := len_le t r
    rw [Nat.min_eq_right this]
    simp

/-- The place in it that corresponds to the end of the line. -/
theorem accept_place {cfg : Cfg} {t s : List Nat} {k r : Nat} (hf : Fits cfg t s k) (hk : k ≤ r) (hr : r ≤ t.length)
    (hb : cfg.originalCase = true → (u8 ((t.take r).drop k)).length = (u8 (s.take (r - k))).length) :
    (if cfg.originalCase then (u8 (t.take k)).length + ((u8 s).length - (u8 (s.drop (t.length - k))).length) else (u8 t).length) =
    (u8 ((accepted cfg t s k r).take t.length)).length := by
  by_cases ho : cfg.originalCase = true
  · rw [if_pos ho, accepted, if_pos ho]
    have h1 := len_take_drop s (t.length - k)
    have h2 := len_take_drop (t.take r) k
    rw [List.take_take, Nat.min_eq_left hk] at h2
    have h3 := hb ho
    have h4 : s.take (t.length - k) = s.take (r - k) ++ (s.drop (r - k)).take (t.length - r) := by
      conv => lhs; rw [show t.length - k = (r - k) + (t.length - r) by omega]
      rw [List.take_add]
    have h5 : (t.take r ++ s.drop (r - k)).take t.length = t.take r ++ (s.drop (r - k)).take (t.length - r) := by
      rw [List.take_append, List.take_of_length_le (by simp; omega)]
      congr 2
      simp; omega
    rw [h5, u8_append, List.length_append]
    rw [h4, u8_append, List.length_append] at h1
    omega
  · rw [if_neg ho, accepted, if_neg ho, shown, List.take_left]

/-- The state after accepting up to character `p`. -/
structure Stepped (cfg : Cfg) (m : Mgr) (t s : List Nat) (k e : Nat) (p : Nat) (m' : Mgr) (b' : Buf) : Prop where
  buf : b' = ⟨u8 ((accepted cfg t s k (max e k)).take p), (u8 ((accepted cfg t s k (max e k)).take p)).length⟩
  part : p < k + s.length → Ready cfg m' b' ((accepted cfg t s k (max e k)).take p) s k e ∧ m'.line = m.line ++ b'.text ∧
    m'.suppress = m.suppress ∧ m'.paused = m.paused
  whole : p = k + s.length → Quiet m' b' ∧ m'.paused = m.paused

theorem stepped {cfg : Cfg} {m : Mgr} {b : Buf} {t s : List Nat} {k e : Nat} (R : Ready cfg m b t s k e) {p : Nat}
    (hp : t.length ≤ p) (hp' : p ≤ k + s.length) (b1 : Buf)
    (hb1 : b1 = ⟨u8 (accepted cfg t s k (max e k)), (u8 ((accepted cfg t s k (max e k)).take p)).length⟩)
    (iter : List Nat) (hi : iter = u8 (s.drop (p - k))) (res : Bool × Mgr × Buf)
    (hres : res = if b1.cursor < b1.text.length then
        (true, { m with iter := iter, line := m.line ++ (b1.removeFrom b1.cursor).text, started := (b1.removeFrom b1.cursor).text },
          b1.removeFrom b1.cursor)
      else (true, suppressNow m b1, b1)) :
    ∃ m' b', res = (true, m', b') ∧ Stepped cfg m t s k e p m' b' := by
  obtain ⟨ht, hs⟩ := R.txt
  obtain ⟨he, hm⟩ := R.endword
  have hk := R.fits.1
  have hr : max e k ≤ t.length := by omega
  have hlen := accepted_length (r := max e k) R.fits (by omega) hr
  have htx := accepted_txt (cfg := cfg) (k := k) (r := max e k) ht hs
  have hti : ∀ i, i ≤ max e k → ((accepted cfg t s k (max e k)).take p).take i = t.take i := by
    intro i hi
    rw [List.take_take, Nat.min_eq_left (by omega), accepted_take hr hi]
  have hcl := accepted_cls (r := max e k) R.fits (by omega) hr
  generalize hAA : accepted cfg t s k (max e k) = A at *
  have hpl : (A.take p).length = p := by rw [List.length_take]; omega
  by_cases h : p < k + s.length
  · have hlt := len_lt A (show p < A.length by omega) (Nat.le_refl _)
    rw [List.take_length] at hlt
    rw [hb1] at hres
    rw [if_pos (by exact hlt)] at hres
    have hrm : (Buf.removeFrom ⟨u8 A, (u8 (A.take p)).length⟩ (u8 (A.take p)).length) = ⟨u8 (A.take p), (u8 (A.take p)).length⟩ := by
      unfold Buf.removeFrom
      simp only [take_u8, Nat.min_self]
    dsimp only at hres
    rw [hrm] at hres
    refine ⟨_, _, hres, ⟨by rw [hAA], fun _ => ⟨?_, rfl, rfl, rfl⟩, fun h' => by omega⟩⟩
    rw [hAA]
    obtain ⟨src, hit⟩ := R.items
    refine ⟨R.on, ⟨htx.take _, hs⟩, R.plain, rfl, ⟨src, ?_⟩, ⟨by omega, ?_⟩, ⟨by omega, ?_⟩, by omega, ?_⟩
    · rw [hti k (by omega)]; exact hit
    · rw [hti e (by omega)]; exact hm
    · rw [List.drop_take, List.map_take, hcl, ← List.map_take]
      exact (List.take_prefix _ _).map _
    · rw [hpl]; exact hi
  · have hpe : p = k + s.length := by omega
    have hA : A.take p = A := List.take_of_length_le (by omega)
    rw [hA] at hb1
    rw [hb1] at hres
    rw [if_neg (by simp)] at hres
    refine ⟨_, _, hres, ⟨by rw [hAA, hA], fun h' => by omega, fun _ => ⟨⟨rfl, rfl, rfl⟩, rfl⟩⟩⟩

theorem insert_full {cfg : Cfg} (hok : LowerOk cfg.lower) {m : Mgr} {b : Buf} {t s : List Nat} {k e : Nat}
    (R : Ready cfg m b t s k e) (E : Even cfg t s k e) :
    ∃ m' b', insert cfg .nextFullWord m b = some (true, m', b') ∧
      NextWord (inQuotes t e) (s.drop (t.length - k)) (nwLen (inQuotes t e) (s.drop (t.length - k))) ∧
      Stepped cfg m t s k e (t.length + nwLen (inQuotes t e) (s.drop (t.length - k))) m' b' := by
  obtain ⟨src, hi, h⟩ := insert_ready hok R .nextFullWord (by simp)
  obtain ⟨ht, hs⟩ := R.txt
  obtain ⟨he, hm⟩ := R.endword
  have hk := R.fits.1
  have hr : max e k ≤ t.length := by omega
  have hlong := R.longer
  have hne : s.drop (t.length - k) ≠ [] := by
    intro h
    have := congrArg List.length h
    simp at this; omega
  have hnw := nextWord (inQuotes t e) _ hne
  rw [quoteAt_eq he hk E.quotes] at h
  have hlen := accepted_length (r := max e k) R.fits (by omega) hr
  have hdrop := accepted_drop (cfg := cfg) (s := s) (k := k) (r := max e k) (by omega) hr
  have hplace := accept_place R.fits (show k ≤ max e k by omega) hr E.bytes
  have htext := accept_text (cfg := cfg) (s := s) (show k ≤ max e k by omega) hr
  have hb := R.buf
  subst hb
  generalize hw : nwLen (inQuotes t e) (s.drop (t.length - k)) = w at *
  have hwle := hnw.le
  rw [List.length_drop] at hwle
  have hcur : (u8 ((accepted cfg t s k (max e k)).take (t.length + w))).length =
      (u8 ((accepted cfg t s k (max e k)).take t.length)).length + (u8 ((s.drop (t.length - k)).take w)).length := by
    rw [List.take_add, hdrop, u8_append, List.length_append]
  have hsk := skip_u8 (hs.drop (t.length - k)) (inQuotes t e)
  rw [hw] at hsk
  have hrest := len_take_drop (s.drop (t.length - k)) w
  unfold accept at h
  dsimp only at h
  rw [htext, hplace, hsk] at h
  have hx := len_le (accepted cfg t s k (max e k)) t.length
  have hy := len_le (accepted cfg t s k (max e k)) (t.length + w)
  obtain ⟨m', b', h1, h2⟩ := stepped R (p := t.length + w) (by omega) (by omega) (b1 :=
    ((Buf.setCursor ⟨u8 (accepted cfg t s k (max e k)), (u8 (accepted cfg t s k (max e k))).length⟩
      (u8 ((accepted cfg t s k (max e k)).take t.length)).length).setCursor
      ((u8 ((accepted cfg t s k (max e k)).take t.length)).length + ((u8 (s.drop (t.length - k))).length - (u8 ((s.drop (t.length - k)).drop w)).length))))
    (by
      unfold Buf.setCursor
      dsimp only
      congr 1
      omega) _ (by
      rw [show t.length + w - k = t.length - k + w by omega, ← List.drop_drop]) _ rfl
  refine ⟨m', b', ?_, hnw, h2⟩
  rw [h]
  have hsc : (Buf.setCursor ⟨u8 (accepted cfg t s k (max e k)), (u8 (accepted cfg t s k (max e k))).length⟩
      (u8 ((accepted cfg t s k (max e k)).take t.length)).length).cursor = (u8 ((accepted cfg t s k (max e k)).take t.length)).length := by
    unfold Buf.setCursor
    exact Nat.min_eq_left hx
  rw [hsc, ← h1]

end Clink.Suggest

namespace Clink.Suggest
open Clink StrCompare Spec
open Clink.Utf (specUtf8 IsText)

theorem insert_next {cfg : Cfg} (hok : LowerOk cfg.lower) {m : Mgr} {b : Buf} {t s : List Nat} {k e : Nat}
    (R : Ready cfg m b t s k e) (E : Even cfg t s k e) {p : Nat} (hp : t.length ≤ p) (hp' : p ≤ k + s.length)
    (hfw : cfg.forwardWord (u8 (accepted cfg t s k (max e k))) (u8 ((accepted cfg t s k (max e k)).take t.length)).length =
      (u8 ((accepted cfg t s k (max e k)).take p)).length) :
    ∃ m' b', insert cfg .nextWord m b = some (true, m', b') ∧ Stepped cfg m t s k e p m' b' := by
  obtain ⟨src, hi, h⟩ := insert_ready hok R .nextWord (by simp)
  obtain ⟨ht, hs⟩ := R.txt
  obtain ⟨he, hm⟩ := R.endword
  have hk := R.fits.1
  have hr : max e k ≤ t.length := by omega
  have hlen := accepted_length (r := max e k) R.fits (by omega) hr
  have hdrop := accepted_drop (cfg := cfg) (s := s) (k := k) (r := max e k) (by omega) hr
  have hplace := accept_place R.fits (show k ≤ max e k by omega) hr E.bytes
  have htext := accept_text (cfg := cfg) (s := s) (show k ≤ max e k by omega) hr
  have hb := R.buf
  subst hb
  have hcur : (u8 ((accepted cfg t s k (max e k)).take p)).length =
      (u8 ((accepted cfg t s k (max e k)).take t.length)).length + (u8 ((s.drop (t.length - k)).take (p - t.length))).length := by
    rw [← List.length_append, ← u8_append, ← hdrop, ← List.take_add, show t.length + (p - t.length) = p by omega]
  have hx := len_le (accepted cfg t s k (max e k)) t.length
  have hy := len_le (accepted cfg t s k (max e k)) p
  unfold accept at h
  dsimp only at h
  rw [htext, hplace] at h
  have hsc : (Buf.setCursor ⟨u8 (accepted cfg t s k (max e k)), (u8 (accepted cfg t s k (max e k))).length⟩
      (u8 ((accepted cfg t s k (max e k)).take t.length)).length) =
      ⟨u8 (accepted cfg t s k (max e k)), (u8 ((accepted cfg t s k (max e k)).take t.length)).length⟩ := by
    unfold Buf.setCursor
    dsimp only
    rw [Nat.min_eq_left hx]
  have hsc2 : (Buf.setCursor ⟨u8 (accepted cfg t s k (max e k)), (u8 ((accepted cfg t s k (max e k)).take t.length)).length⟩
      (u8 ((accepted cfg t s k (max e k)).take p)).length) =
      ⟨u8 (accepted cfg t s k (max e k)), (u8 ((accepted cfg t s k (max e k)).take p)).length⟩ := by
    unfold Buf.setCursor
    dsimp only
    rw [Nat.min_eq_left hy]
  rw [hsc] at h
  dsimp only at h
  rw [hfw, hsc2] at h
  dsimp only at h
  rw [show (u8 ((accepted cfg t s k (max e k)).take p)).length - (u8 ((accepted cfg t s k (max e k)).take t.length)).length =
    (u8 ((s.drop (t.length - k)).take (p - t.length))).length by omega, resync_u8 (hs.drop _)] at h
  obtain ⟨m', b', h1, h2⟩ := stepped R hp hp' _ rfl (u8 ((s.drop (t.length - k)).drop (p - t.length)))
    (by rw [List.drop_drop]; congr 2; omega) _ rfl
  refine ⟨m', b', ?_, h2⟩
  rw [h, ← h1]

theorem insert_end {cfg : Cfg} (hok : LowerOk cfg.lower) {m : Mgr} {b : Buf} {t s : List Nat} {k e : Nat}
    (R : Ready cfg m b t s k e) :
    ∃ m' b', insert cfg .toEnd m b = some (true, m', b') ∧ Quiet m' b' ∧ b'.cursor = b'.text.length ∧
      b'.text = u8 (accepted cfg t s k (if k = 0 then 0 else max e k)) := by
  obtain ⟨ht, hs⟩ := R.txt
  obtain ⟨he, hm⟩ := R.endword
  have hk := R.fits.1
  by_cases ha : cfg.originalCase = true ∧ k = 0
  · obtain ⟨ho, hk0⟩ := ha
    subst hk0
    obtain ⟨on1, on2, on3⟩ := R.on
    obtain ⟨src, hi⟩ := R.items
    have hb := R.buf
    subst hb
    have hmore : Utf.more m.iter = true := by
      rw [R.iter, more_u8 (hs.drop _)]
      intro h
      have := congrArg List.length h
      have := R.longer
      simp at *
      omega
    have hfit := R.fits.2
    rw [List.drop_zero] at hfit
    have hc := cmp_fits hok ht hs R.plain hfit
    have hm2 : Utf.more (u8 (s.drop t.length)) = true := by
      have := R.iter
      rw [Nat.sub_zero] at this
      rw [← this]; exact hmore
    refine ⟨suppressNow m ⟨u8 s, (u8 s).length⟩, ⟨u8 s, (u8 s).length⟩, ?_, ⟨rfl, rfl, rfl⟩, rfl, ?_⟩
    · unfold insert
      have h1 : (u8 (t.take 0)).length = 0 := rfl
      have hmo : Utf.more [] = false := rfl
      simp only [on1, on2, on3, hi, hmore, ho, hc, h1, hm2, hmo]
      simp [Buf.removeFrom, Buf.insert]
    · rw [if_pos rfl, accepted, if_pos ho]; simp
  · obtain ⟨src, hi, h⟩ := insert_ready hok R .toEnd (by
      rintro ⟨h1, -, h2⟩
      exact ha ⟨h1, h2⟩)
    have htext := accept_text (cfg := cfg) (s := s) (show k ≤ max e k by omega) (show max e k ≤ t.length by omega)
    have hb := R.buf
    subst hb
    unfold accept at h
    dsimp only at h
    rw [htext] at h
    refine ⟨_, _, h, ⟨rfl, rfl, rfl⟩, rfl, ?_⟩
    dsimp only
    congr 1
    by_cases hk0 : k = 0
    · rw [if_pos hk0]
      have ho : ¬ cfg.originalCase = true := fun ho => ha ⟨ho, hk0⟩
      rw [accepted, if_neg ho, accepted, if_neg ho]
    · rw [if_neg hk0]

theorem even_again {cfg : Cfg} {t s : List Nat} {k e p : Nat} (hk : k ≤ t.length) (he : e ≤ t.length) (hp : t.length ≤ p)
    (E : Even cfg t s k e) : Even cfg ((accepted cfg t s k (max e k)).take p) s k e := by
  have hti : ∀ i, i ≤ max e k → ((accepted cfg t s k (max e k)).take p).take i = t.take i := by
    intro i hi
    rw [List.take_take, Nat.min_eq_left (by omega), accepted_take (by omega) hi]
  refine ⟨fun ho => ?_, ?_⟩
  · rw [hti _ (Nat.le_refl _)]; exact E.bytes ho
  · rw [hti _ (by omega)]; exact E.quotes

theorem insert_quiet {cfg : Cfg} {act : Action} {m : Mgr} {b : Buf} (h : m.items = []) : insert cfg act m b = some (false, m, b) := by
  unfold insert
  rw [h]
  split <;> rfl

theorem forward_full {cfg : Cfg} (hok : LowerOk cfg.lower) (count : Nat) {m : Mgr} {b : Buf} {t s : List Nat} {k e : Nat}
    (R : Ready cfg m b t s k e) (E : Even cfg t s k e) :
    ∃ left m' b' p, forward cfg .nextFullWord count m b = some (left, m', b') ∧ left ≤ count ∧
      t.length + (count - left) ≤ p ∧ p ≤ k + s.length ∧
      b'.cursor = b'.text.length ∧ b'.text = u8 (if count = 0 then t else (accepted cfg t s k (max e k)).take p) ∧
      (0 < left → p = k + s.length) ∧ (p = k + s.length → Quiet m' b') := by
  induction count generalizing m b t with
  | zero =>
    have := R.longer
    have := R.fits.1
    refine ⟨0, m, b, t.length, rfl, by omega, by omega, by omega, ?_, ?_, by omega, by omega⟩
    · rw [R.buf]
    · rw [R.buf]; rfl
  | succ n ih =>
    obtain ⟨m1, b1, h1, hw, S⟩ := insert_full hok R E
    have hpos := hw.pos
    have hle := hw.le
    rw [List.length_drop] at hle
    have hk := R.fits.1
    have he := R.endword.1
    have hlong := R.longer
    generalize nwLen (inQuotes t e) (s.drop (t.length - k)) = w at *
    rw [forward, h1]
    dsimp only
    simp only [Nat.add_one_ne_zero, if_false]
    have hlen := accepted_length (r := max e k) R.fits (by omega) (by omega)
    by_cases hp : t.length + w < k + s.length
    · obtain ⟨R', -⟩ := S.part hp
      obtain ⟨left, m', b', p, g1, g2, g3, g4, g5, g6, g7, g8⟩ := ih R' (even_again hk he (by omega) E)
      have hl : ((accepted cfg t s k (max e k)).take (t.length + w)).length = t.length + w := by rw [List.length_take]; omega
      rw [hl] at g3
      rw [accepted_again R.fits (by omega) (by omega) (by omega) (by omega)] at g6
      by_cases hn : n = 0
      · subst hn
        rw [if_pos rfl] at g6
        rw [forward] at g1
        simp only [Option.some.injEq, Prod.mk.injEq] at g1
        obtain ⟨rfl, rfl, rfl⟩ := g1
        refine ⟨0, m1, b1, t.length + w, by rw [forward], by omega, by omega, by omega, g5, g6, by omega, by omega⟩
      · rw [if_neg hn] at g6
        exact ⟨left, m', b', p, g1, by omega, by omega, g4, g5, g6, g7, g8⟩
    · have hpe : t.length + w = k + s.length := by omega
      obtain ⟨Q, -⟩ := S.whole hpe
      cases n with
      | zero =>
        refine ⟨0, m1, b1, t.length + w, rfl, by omega, by omega, by omega, ?_, ?_, by omega, fun _ => Q⟩
        · rw [S.buf]
        · rw [S.buf]
      | succ n =>
        refine ⟨n + 1, m1, b1, t.length + w, ?_, by omega, by omega, by omega, ?_, ?_, fun _ => hpe, fun _ => Q⟩
        · rw [forward, insert_quiet Q.1]
        · rw [S.buf]
        · rw [S.buf]

/-- What `set` does with one suggestion. -/
theorem set_fits {cfg : Cfg} (hok : LowerOk cfg.lower) (he : cfg.enable = true) (hin : cfg.inline = true)
    (hla : cfg.listActive = false) (hle : cfg.listEnabled = false) (m : Mgr) {t s src : List Nat} {k e : Nat} (ht : Txt t) (hs : Txt s)
    (ps : Plain s) (hk : k ≤ t.length) (hee : e ≤ t.length)
    (hnew : ¬ (m.items = [⟨u8 s, (u8 (t.take k)).length, src⟩] ∧ m.endword = (u8 (t.take e)).length ∧ m.line = u8 t))
    (hf : Fits cfg t s k) :
    (set cfg m (u8 t) (u8 (t.take e)).length [⟨u8 s, (u8 (t.take k)).length, src⟩]).line = u8 t ∧
    (t.length - k < s.length → Ready cfg (set cfg m (u8 t) (u8 (t.take e)).length [⟨u8 s, (u8 (t.take k)).length, src⟩])
      ⟨u8 t, (u8 t).length⟩ t s k e) := by
  have hc := cmp_fits hok (ht.drop k) hs ps hf.2
  have hmo : ¬ Utf.more [] = true := by simp [Utf.more]
  have hset : set cfg m (u8 t) (u8 (t.take e)).length [⟨u8 s, (u8 (t.take k)).length, src⟩] =
      { items := [⟨u8 s, (u8 (t.take k)).length, src⟩], line := u8 t, iter := u8 (s.drop (t.length - k)), started := u8 t,
        endword := (u8 (t.take e)).length, paused := m.paused, suppress := m.suppress } := by
    unfold set
    rw [if_neg hnew]
    have hfil : ([⟨u8 s, (u8 (t.take k)).length, src⟩] : List Item).filter (fun i => i.offset ≤ (u8 t).length) =
        [⟨u8 s, (u8 (t.take k)).length, src⟩] := by
      rw [List.filter_cons_of_pos (by simpa using len_le t k)]; rfl
    rw [hfil]
    dsimp only
    rw [he, hle, drop_u8, hc]
    dsimp only
    rw [if_neg hmo]
    simp
  rw [hset]
  exact ⟨rfl, fun hl => ⟨⟨he, hin, hla⟩, ⟨ht, hs⟩, ps, rfl, ⟨src, rfl⟩, ⟨hee, rfl⟩, hf, hl, rfl⟩⟩

theorem set_not {cfg : Cfg} (hok : LowerOk cfg.lower) (hle : cfg.listEnabled = false) (m : Mgr) {t s src : List Nat} {k e : Nat}
    (ht : Txt t) (hs : Txt s) (pt : Plain (t.drop k)) (ps : Plain s) (hk : k ≤ t.length)
    (hnew : ¬ (m.items = [⟨u8 s, (u8 (t.take k)).length, src⟩] ∧ m.endword = (u8 (t.take e)).length ∧ m.line = u8 t))
    (hf : ¬ Fits cfg t s k) :
    set cfg m (u8 t) (u8 (t.take e)).length [⟨u8 s, (u8 (t.take k)).length, src⟩] = setNone m (u8 t) := by
  have hc := cmp_not hok (ht.drop k) hs pt ps (fun h => hf ⟨hk, h⟩)
  unfold set
  rw [if_neg hnew]
  have hfil : ([⟨u8 s, (u8 (t.take k)).length, src⟩] : List Item).filter (fun i => i.offset ≤ (u8 t).length) =
      [⟨u8 s, (u8 (t.take k)).length, src⟩] := by
    rw [List.filter_cons_of_pos (by simpa using len_le t k)]; rfl
  rw [hfil]
  dsimp only
  split
  · rfl
  · rw [hle, drop_u8, if_pos hc]
    simp

theorem set_line (cfg : Cfg) (m : Mgr) (line : List Nat) (e : Nat) (sg : List Item) : (set cfg m line e sg).line = line := by
  unfold set
  split
  · rename_i h; exact h.2.2
  · split
    · rfl
    · split
      · rfl
      · split
        · rfl
        · dsimp only
          split <;> rfl

theorem set_paused (cfg : Cfg) (m : Mgr) (line : List Nat) (e : Nat) (sg : List Item) : (set cfg m line e sg).paused = m.paused := by
  unfold set
  split
  · rfl
  · split
    · rfl
    · split
      · rfl
      · split
        · rfl
        · dsimp only
          split <;> rfl

theorem canSuggest_asks {a : Ask} {m : Mgr} {b : Buf} (h : Asks a m b) :
    ((canSuggest a m b).1 = true ↔ m.line ≠ b.text ∧ ¬ (m.suppress = true ∧ a.erased = true)) := by
  obtain ⟨h1, h2, h3, h4⟩ := h
  unfold canSuggest
  rw [h1, h2, h3]
  simp only [Bool.false_eq_true, if_false, ne_eq, h4, not_true]
  cases hs : m.suppress <;> cases ha : a.erased <;> simp
  split <;> simp [*]

end Clink.Suggest
