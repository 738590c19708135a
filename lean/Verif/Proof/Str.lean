import Verif.Spec.Str
import Verif.Proof.Utf
namespace Clink.Str

theorem takeWhile_append_zero (t r : List Nat) (h : ∀ c ∈ t, c ≠ 0) :
    (t ++ 0 :: r).takeWhile (· != 0) = t := by
  rw [List.takeWhile_append_of_pos (by simpa using h)]; simp

theorem strlen_of (t r : List Nat) (h : ∀ c ∈ t, c ≠ 0) : strlen (t ++ 0 :: r) = some t.length := by
  unfold strlen
  rw [takeWhile_append_zero t r h]; simp

theorem length_of_rep {s : Str} {a : SStr} (h : Rep s a) :
    s.length = some (a.text.length, { s with cache := a.text.length }) := by
  unfold Str.length
  obtain ⟨r, hr⟩ := h.mem
  rcases h.cache with hc | ⟨hc, hz⟩
  · by_cases h0 : s.cache = 0
    · have : a.text = [] := by
        have : a.text.length = 0 := by omega
        exact List.eq_nil_of_length_eq_zero this
      rw [if_neg (by omega), hr, this]
      simp [strlen]
    · rw [if_pos h0]
      simp only [hc]
      cases s; simp_all
  · rw [if_neg (by omega), hr, strlen_of _ _ hz]
    rfl

theorem rep_setcache {s : Str} {a : SStr} (h : Rep s a) : Rep { s with cache := a.text.length } a :=
  ⟨h.mem, h.cap, h.cap16, h.grow, Or.inl rfl⟩

theorem rep_len_lt {s : Str} {a : SStr} (h : Rep s a) : a.text.length < a.cap := by
  obtain ⟨r, hr⟩ := h.mem
  rw [← h.cap, hr]; simp

theorem round64_eq (n : Nat) : round64 n = (n + 63) / 64 * 64 := rfl

theorem reserve_rep (junk) {s : Str} {a : SStr} (h : Rep s a) (n : Nat) :
    Rep (s.reserve junk n).1 { a with cap := growTo a.cap a.growable n } ∧
    (s.reserve junk n).2 = decide (n + 1 ≤ growTo a.cap a.growable n) ∧
    (s.reserve junk n).1.cache = s.cache := by
  obtain ⟨r, hr⟩ := h.mem
  have hcap := h.cap
  have h16 := h.cap16
  unfold Str.reserve growTo
  simp only [Bool.false_eq_true, if_false]
  by_cases h1 : n + 1 ≤ a.cap
  · rw [if_pos (by omega), if_pos h1]
    exact ⟨h, by simp [h1], rfl⟩
  · rw [if_neg (by omega), if_neg h1]
    by_cases h2 : a.growable = true
    · rw [if_neg (by simp [h.grow, h2]), round64_eq]
      by_cases h3 : (n + 1 + 63) / 64 * 64 < 65536
      · rw [if_neg (by omega), if_pos ⟨h2, h3⟩]
        refine ⟨⟨⟨r ++ (List.range ((n + 1 + 63) / 64 * 64 - s.mem.length)).map junk, ?_⟩, ?_, h3, h.grow, h.cache⟩, ?_, rfl⟩
        · simp [hr]
        · simp only [List.length_append, List.length_map, List.length_range]; omega
        · simp; omega
      · rw [if_pos (by omega), if_neg (by simp; intro _; omega)]
        exact ⟨⟨h.mem, h.cap, h16, h.grow, h.cache⟩, by simp; omega, rfl⟩
    · rw [if_pos (by simp [h.grow, h2]), if_neg (by simp [h2])]
      exact ⟨⟨h.mem, h.cap, h16, h.grow, h.cache⟩, by simp; omega, rfl⟩

theorem reserve_exact_rep (junk) {s : Str} {a : SStr} (h : Rep s a) (n : Nat) :
    Rep (s.reserve junk n true).1 { a with cap := growExact a.cap a.growable n } ∧
    (s.reserve junk n true).2 = decide (n ≤ growExact a.cap a.growable n) := by
  obtain ⟨r, hr⟩ := h.mem
  have hcap := h.cap
  have h16 := h.cap16
  unfold Str.reserve growExact
  simp only [if_true]
  by_cases h1 : n ≤ a.cap
  · rw [if_pos (by omega), if_pos h1]
    exact ⟨h, by simp [h1]⟩
  · rw [if_neg (by omega), if_neg h1]
    by_cases h2 : a.growable = true
    · rw [if_neg (by simp [h.grow, h2])]
      by_cases h3 : n < 65536
      · rw [if_neg (by omega), if_pos ⟨h2, h3⟩]
        refine ⟨⟨⟨r ++ (List.range (n - s.mem.length)).map junk, ?_⟩, ?_, h3, h.grow, h.cache⟩, ?_⟩
        · simp [hr]
        · simp only [List.length_append, List.length_map, List.length_range]; omega
        · simp
      · rw [if_pos (by omega), if_neg (by simp; intro _; omega)]
        exact ⟨⟨h.mem, h.cap, h16, h.grow, h.cache⟩, by simp; omega⟩
    · rw [if_pos (by simp [h.grow, h2]), if_neg (by simp [h2])]
      exact ⟨⟨h.mem, h.cap, h16, h.grow, h.cache⟩, by simp; omega⟩

theorem store_ok (mem : List Nat) (k : Nat) (xs : List Nat) (h : k + xs.length ≤ mem.length) :
    store mem k xs = some (mem.take k ++ xs ++ mem.drop (k + xs.length)) := if_pos h

theorem store_len {mem m' : List Nat} {k : Nat} {xs : List Nat} (h : store mem k xs = some m') :
    m'.length = mem.length := by
  unfold store at h
  split at h
  · simp only [Option.some.injEq] at h
    subst h
    simp only [List.length_append, List.length_take, List.length_drop]; omega
  · simp at h

/-- The copy loop copies the text before the NUL, cut to `r`. -/
theorem copyLoop_eq (r : Nat) (src : List Nat) (h : r ≤ src.length ∨ 0 ∈ src) :
    copyLoop r src = some ((upToNul src).take r) := by
  induction r generalizing src with
  | zero => simp [copyLoop]
  | succ r ih =>
    cases src with
    | nil => simp at h
    | cons c src =>
      rw [copyLoop]
      by_cases hc : c = 0
      · subst hc; simp [upToNul]
      · rw [if_neg hc, ih]
        · simp [upToNul, hc]
        · rcases h with h | h
          · left; simpa using h
          · right; simp at h
            rcases h with h | h
            · exact absurd h.symm hc
            · exact h

theorem upToNul_take (src : List Nat) (n k : Nat) (hk : k ≤ n) :
    (upToNul (src.take n)).take k = (upToNul src).take k := by
  unfold upToNul
  induction src generalizing n k with
  | nil => simp
  | cons c src ih =>
    cases n with
    | zero => have : k = 0 := by omega
              subst this; simp
    | succ n =>
      simp only [List.take_succ_cons]
      by_cases hc : c = 0
      · subst hc; simp
      · simp only [List.takeWhile_cons, bne_iff_ne, ne_eq, hc, not_false_eq_true, if_true]
        cases k with
        | zero => simp
        | succ k => simp only [List.take_succ_cons]; rw [ih n k (by omega)]

theorem upToNul_len_le (src : List Nat) : (upToNul src).length ≤ src.length := by
  unfold upToNul; exact (List.takeWhile_sublist _).length_le

theorem upToNul_pos (src : List Nat) : ∀ c ∈ upToNul src, c ≠ 0 := by
  unfold upToNul
  induction src with
  | nil => simp
  | cons x src ih =>
    rw [List.takeWhile_cons]
    split
    · rename_i hx
      intro c hc
      rcases List.mem_cons.1 hc with rfl | hc
      · simpa using hx
      · exact ih c hc
    · simp

theorem argLen_ok (src : List Nat) (n : Option Nat) (h : n = none → 0 ∈ src) :
    argLen src n = some (n.getD (upToNul src).length) := by
  cases n with
  | some n => rfl
  | none =>
    have h0 : 0 ∈ src := h rfl
    simp only [Option.getD_none, argLen, strlen]
    rw [if_pos]
    · rfl
    · clear h
      induction src with
      | nil => simp at h0
      | cons c src ih =>
        by_cases hc : c = 0
        · subst hc; simp
        · simp only [List.takeWhile_cons, bne_iff_ne, ne_eq, hc, not_false_eq_true, if_true, List.length_cons]
          have := ih (by simp at h0; rcases h0 with h0 | h0; exact absurd h0.symm hc; exact h0)
          omega

theorem rep_mem_split {s : Str} {a : SStr} (h : Rep s a) :
    s.mem.take a.text.length = a.text ∧ s.mem[a.text.length]? = some 0 := by
  obtain ⟨r, hr⟩ := h.mem
  rw [hr]; simp

/-- The core of `concat`. -/
theorem concat_core (junk) {s : Str} {a : SStr} (h : Rep s a) (src : List Nat) (n : Option Nat)
    (m : Nat) (hn : argLen src n = some m) (hread : m ≤ src.length ∨ 0 ∈ src) :
    ∃ s', s.concat junk src n =
        some (s', decide (a.text.length + m < growTo a.cap a.growable (a.text.length + m))) ∧
      Rep s' { a with
        text := a.text ++ (upToNul (src.take m)).take (growTo a.cap a.growable (a.text.length + m) - 1 - a.text.length)
        cap := growTo a.cap a.growable (a.text.length + m) } := by
  unfold Str.concat
  simp only [hn, length_of_rep h]
  obtain ⟨hr, -, hcache⟩ := reserve_rep junk (rep_setcache h) (a.text.length + m)
  generalize ({ s with cache := a.text.length } : Str).reserve junk (a.text.length + m) = s1 at *
  have hlt := rep_len_lt hr
  simp only at hlt
  have hcap := hr.cap
  simp only at hcap
  have hgrow := hr.grow
  have h16 := hr.cap16
  simp only at h16
  generalize hC : growTo a.cap a.growable (a.text.length + m) = C at *
  rw [hcap]
  obtain ⟨hm1, hm2⟩ := rep_mem_split hr
  simp only at hm1 hm2
  by_cases ht : a.text.length + m < C
  · -- not truncated
    have e1 : ¬ ((C : Int) - a.text.length - 1 < m) := by omega
    simp only [e1, decide_false, Bool.false_eq_true, if_false, ht, decide_true, Bool.not_false]
    by_cases hm0 : m = 0
    · subst hm0
      rw [if_neg (by omega)]
      refine ⟨_, rfl, ?_⟩
      simp only [List.take_zero, upToNul, List.takeWhile_nil, List.take_nil, List.append_nil]
      exact ⟨hr.mem, hcap, h16, hgrow, hr.cache⟩
    · rw [if_pos (by omega)]
      simp only [Int.toNat_natCast]
      rw [copyLoop_eq _ _ hread]
      simp only
      have hl : ((upToNul src).take m).length ≤ m := by rw [List.length_take]; omega
      rw [store_ok _ _ _ (by rw [List.length_append]; simp only [List.length_cons, List.length_nil]; omega)]
      refine ⟨_, rfl, ?_⟩
      have e2 : (upToNul (src.take m)).take (C - 1 - a.text.length) = (upToNul src).take m := by
        have : (upToNul (src.take m)).length ≤ m := by
          have := upToNul_len_le (src.take m)
          rw [List.length_take] at this; omega
        rw [List.take_of_length_le (by omega), ← List.take_of_length_le this, upToNul_take _ _ _ (by omega)]
      rw [e2]
      refine ⟨⟨s1.1.mem.drop (a.text.length + ((upToNul src).take m ++ [0]).length), ?_⟩, ?_, h16, hgrow, Or.inl ?_⟩
      · simp only [hm1]; simp
      · simp only [List.length_append, List.length_take, List.length_drop, List.length_cons, List.length_nil]
        rw [List.length_take] at hl
        omega
      · simp
  · have e1 : ((C : Int) - a.text.length - 1 < m) := by omega
    simp only [e1, decide_true, if_true, ht, decide_false, Bool.not_true]
    by_cases hm0 : C = a.text.length + 1
    · rw [if_neg (by omega)]
      refine ⟨_, rfl, ?_⟩
      have : C - 1 - a.text.length = 0 := by omega
      rw [this]
      simp only [List.take_zero, List.append_nil]
      exact ⟨hr.mem, hcap, h16, hgrow, hr.cache⟩
    · rw [if_pos (by omega)]
      have et : ((C : Int) - a.text.length - 1).toNat = C - 1 - a.text.length := by omega
      rw [et, copyLoop_eq _ _ (by rcases hread with h | h; left; omega; right; exact h)]
      simp only
      have hl : ((upToNul src).take (C - 1 - a.text.length)).length ≤ C - 1 - a.text.length := by
        rw [List.length_take]; omega
      rw [store_ok _ _ _ (by rw [List.length_append]; simp only [List.length_cons, List.length_nil]; omega)]
      refine ⟨_, rfl, ?_⟩
      rw [upToNul_take _ _ _ (by omega)]
      refine ⟨⟨s1.1.mem.drop (a.text.length + ((upToNul src).take (C - 1 - a.text.length) ++ [0]).length), ?_⟩, ?_, h16, hgrow, Or.inl ?_⟩
      · simp only [hm1]; simp
      · simp only [List.length_append, List.length_take, List.length_drop, List.length_cons, List.length_nil]
        rw [List.length_take] at hl
        omega
      · simp

theorem clear_rep {s : Str} {a : SStr} (h : Rep s a) :
    ∃ s', s.clear = some s' ∧ Rep s' { a with text := [] } := by
  unfold Str.clear
  have := rep_len_lt h
  rw [store_ok _ _ _ (by simp only [List.length_cons, List.length_nil]; have := h.cap; omega)]
  refine ⟨_, rfl, ⟨⟨s.mem.drop 1, by simp⟩, ?_, h.cap16, h.grow, Or.inl rfl⟩⟩
  have := h.cap
  simp only [List.length_append, List.length_take, List.length_drop, List.length_cons, List.length_nil]; omega

theorem init_rep (mem : List Nat) (g : Bool) (h : 0 < mem.length) (h16 : mem.length < 65536) :
    ∃ s, Str.init mem g = some s ∧ Rep s ⟨[], mem.length, g⟩ := by
  unfold Str.init Str.clear
  rw [store_ok _ _ _ (by simp only [List.length_cons, List.length_nil]; omega)]
  refine ⟨_, rfl, ⟨⟨mem.drop 1, by simp⟩, ?_, h16, rfl, Or.inl rfl⟩⟩
  simp only [List.length_append, List.length_take, List.length_drop, List.length_cons, List.length_nil]; omega

theorem truncate_rep {s : Str} {a : SStr} (h : Rep s a) (p : Nat) (hp : p ≤ a.text.length ∨ a.cap ≤ p) :
    ∃ s', s.truncate p = some s' ∧ Rep s' { a with text := a.text.take p } := by
  unfold Str.truncate
  have hl := rep_len_lt h
  have hc := h.cap
  obtain ⟨hm1, -⟩ := rep_mem_split h
  by_cases hpc : a.cap ≤ p
  · rw [if_pos (by omega)]
    refine ⟨s, rfl, ?_⟩
    rw [List.take_of_length_le (by omega)]
    exact h
  · rw [if_neg (by omega), store_ok _ _ _ (by simp only [List.length_cons, List.length_nil]; omega)]
    have hp : p ≤ a.text.length := by omega
    refine ⟨_, rfl, ⟨⟨s.mem.drop (p + 1), ?_⟩, ?_, h.cap16, h.grow, Or.inl ?_⟩⟩
    · simp only [List.length_cons, List.length_nil]
      rw [← hm1, List.take_take, Nat.min_eq_left hp]; simp
    · simp only [List.length_append, List.length_take, List.length_drop, List.length_cons, List.length_nil]; omega
    · simp [List.length_take]; omega

theorem concatNT_rep (junk) {s : Str} {a : SStr} (h : Rep s a) (src : List Nat) (n : Nat)
    (ho : n ≤ src.length) :
    ∃ s', s.concatNT junk src n = some (s', (specStep a (.concatNT src n)).2) ∧
      Rep s' (specStep a (.concatNT src n)).1 := by
  unfold Str.concatNT
  by_cases h0 : n = 0
  · subst h0
    exact ⟨s, by simp [specStep], by simpa [specStep] using h⟩
  simp only [if_neg h0, length_of_rep h, specStep]
  obtain ⟨hr, -, hcache⟩ := reserve_rep junk (rep_setcache h) (a.text.length + n)
  generalize ({ s with cache := a.text.length } : Str).reserve junk (a.text.length + n) = s1 at *
  have hlt := rep_len_lt hr
  simp only at hlt
  have hcap := hr.cap
  simp only at hcap
  have hgrow := hr.grow
  have h16 := hr.cap16
  simp only at h16
  generalize hC : growTo a.cap a.growable (a.text.length + n) = C at *
  rw [hcap]
  obtain ⟨hm1, hm2⟩ := rep_mem_split hr
  simp only at hm1 hm2
  by_cases ht : a.text.length + n < C
  · rw [if_neg (by omega), if_neg (by omega), if_pos ht]
    rw [store_ok _ _ _ (by rw [List.length_append, List.length_take]; simp only [List.length_cons, List.length_nil]; omega)]
    refine ⟨_, rfl, ⟨⟨s1.1.mem.drop (a.text.length + (src.take n ++ [0]).length), ?_⟩, ?_, h16, hgrow, Or.inl ?_⟩⟩
    · simp only [hm1]; simp
    · simp only [List.length_append, List.length_take, List.length_drop, List.length_cons, List.length_nil]
      omega
    · simp only [hcache, List.length_append, List.length_take]; omega
  · rw [if_pos (by omega), if_neg ht]
    exact ⟨_, rfl, hr⟩

/-! trim -/

theorem trimEnd_le (mem : List Nat) (e : Nat) : trimEnd mem e ≤ e := by
  induction e with
  | zero => simp [trimEnd]
  | succ e ih => rw [trimEnd]; split <;> omega

theorem trimEnd_eq (t r : List Nat) :
    t.take (trimEnd (t ++ r) t.length) = (t.reverse.dropWhile isTrail).reverse ∧
    (t.take (trimEnd (t ++ r) t.length)).length = trimEnd (t ++ r) t.length := by
  refine ⟨?_, by rw [List.length_take]; have := trimEnd_le (t ++ r) t.length; omega⟩
  generalize ht : t.reverse = u
  have : t = u.reverse := by rw [← ht]; simp
  subst this
  clear ht
  induction u generalizing r with
  | nil => simp
  | cons c u ih =>
    have e1 : (c :: u).reverse ++ r = u.reverse ++ (c :: r) := by simp
    rw [e1]
    have e2 : (c :: u).reverse.length = u.reverse.length + 1 := by simp
    rw [e2, trimEnd]
    have e3 : (u.reverse ++ c :: r).getD u.reverse.length 0 = c := by simp [List.getD]
    rw [e3, List.dropWhile_cons]
    have hle := trimEnd_le (u.reverse ++ c :: r) u.reverse.length
    split
    · rw [List.reverse_cons, List.take_append_of_le_length hle, ih]
    · rw [List.take_of_length_le (by simp)]

theorem trimLead_eq (t r : List Nat) (k : Nat) (hk : k ≤ t.length) :
    t.drop (trimLead (t ++ r) (t.length - k) k) = (t.drop k).dropWhile isLead ∧
    k ≤ trimLead (t ++ r) (t.length - k) k ∧ trimLead (t ++ r) (t.length - k) k ≤ t.length := by
  generalize hd : t.length - k = d
  induction d generalizing k with
  | zero =>
    have : k = t.length := by omega
    subst this
    simp [trimLead]
  | succ d ih =>
    rw [trimLead]
    have hk' : k < t.length := by omega
    have e1 : (t ++ r).getD k 0 = t[k] := by
      simp [List.getD, List.getElem?_append_left hk', hk']
    have e2 : t.drop k = t[k] :: t.drop (k + 1) := by rw [List.drop_eq_getElem_cons hk']
    rw [e1, e2, List.dropWhile_cons]
    split
    · obtain ⟨i1, i2, i3⟩ := ih (k + 1) (by omega) (by omega)
      exact ⟨i1, by omega, i3⟩
    · exact ⟨e2, by omega, by omega⟩

theorem trimmed_eq (t : List Nat) : trimmed t = (t.reverse.dropWhile isTrail).reverse.dropWhile isLead := rfl

theorem trim_rep {s : Str} {a : SStr} (h : Rep s a) :
    ∃ s', s.trim = some s' ∧ Rep s' { a with text := trimmed a.text } := by
  unfold Str.trim
  simp only [length_of_rep h]
  have hl := rep_len_lt h
  have hc := h.cap
  obtain ⟨r, hr⟩ := h.mem
  have hle := trimEnd_le s.mem a.text.length
  rw [if_pos (by omega)]
  rw [store_ok _ _ _ (by simp only [List.length_cons, List.length_nil]; omega)]
  simp only [Option.map_some]
  obtain ⟨t1, t2⟩ := trimEnd_eq a.text (0 :: r)
  rw [← hr] at t1 t2
  generalize he : trimEnd s.mem a.text.length = e at *
  -- the memory after the first phase: kept ++ 0 :: rest
  have hm : s.mem.take e ++ [0] ++ s.mem.drop (e + [0].length) =
      (a.text.take e) ++ (0 :: s.mem.drop (e + 1)) := by
    have : s.mem.take e = a.text.take e := by
      rw [hr, List.take_append_of_le_length hle]
    rw [this]; simp
  rw [hm]
  generalize hK : a.text.take e = K at *
  rw [trimmed_eq, ← t1]
  have hKe : K.length = e := t2
  obtain ⟨l1, l2, l3⟩ := trimLead_eq K (0 :: s.mem.drop (e + 1)) 0 (by omega)
  rw [Nat.sub_zero, hKe] at l1 l2 l3
  rw [List.drop_zero] at l1
  generalize hp : trimLead (K ++ 0 :: s.mem.drop (e + 1)) e 0 = p at *
  have hmlen : (K ++ 0 :: s.mem.drop (e + 1)).length = s.mem.length := by
    simp only [List.length_append, List.length_cons, List.length_drop]; omega
  by_cases hp0 : p > 0
  · rw [if_pos hp0, if_pos (by rw [hmlen]; omega)]
    have hdl : ((K ++ 0 :: s.mem.drop (e + 1)).drop p).take (e - p + 1) = K.drop p ++ [0] := by
      rw [List.drop_append_of_le_length (by omega), List.take_append]
      rw [List.take_of_length_le (by rw [List.length_drop]; omega), List.length_drop]
      have : e - p + 1 - (K.length - p) = 1 := by omega
      rw [this]; rfl
    rw [hdl, store_ok _ _ _ (by rw [hmlen, List.length_append, List.length_drop]; simp only [List.length_cons, List.length_nil]; omega)]
    refine ⟨_, rfl, ⟨⟨(K ++ 0 :: s.mem.drop (e + 1)).drop (0 + (K.drop p ++ [0]).length), ?_⟩, ?_, h.cap16, h.grow, Or.inl ?_⟩⟩
    · simp only [List.take_zero, List.nil_append, ← l1]; simp
    · simp only [List.length_append, List.length_take, List.length_drop, List.length_cons, List.length_nil]
      omega
    · simp only [← l1, List.length_drop]; omega
  · rw [if_neg hp0]
    have : p = 0 := by omega
    subst this
    rw [List.drop_zero] at l1
    refine ⟨_, rfl, ⟨⟨s.mem.drop (e + 1), ?_⟩, ?_, h.cap16, h.grow, Or.inl ?_⟩⟩
    · simp only [← l1]
    · simp only; omega
    · simp only [← l1]; omega

theorem step_rep (junk) {s : Str} {a : SStr} (h : Rep s a) (op : Op) (ho : OpOk a op) :
    ∃ s', step junk s op = some (s', (specStep a op).2) ∧ Rep s' (specStep a op).1 := by
  cases op with
  | clear =>
    obtain ⟨s', h1, h2⟩ := clear_rep h
    exact ⟨s', by simp [step, h1, specStep], h2⟩
  | truncate p =>
    obtain ⟨s', h1, h2⟩ := truncate_rep h p ho
    exact ⟨s', by simp [step, h1, specStep], h2⟩
  | trim =>
    obtain ⟨s', h1, h2⟩ := trim_rep h
    exact ⟨s', by simp [step, h1, specStep], h2⟩
  | concat src n =>
    have hn := argLen_ok src n (by intro hn; subst hn; exact ho)
    have hread : n.getD (upToNul src).length ≤ src.length ∨ 0 ∈ src := by
      cases n with
      | none => exact Or.inr ho
      | some n => exact ho
    exact concat_core junk h src n _ hn hread
  | concatNT src n => exact concatNT_rep junk h src n ho
  | copy src =>
    obtain ⟨s1, h1, h2⟩ := clear_rep h
    have hn := argLen_ok src none (fun _ => ho)
    obtain ⟨s', h3, h4⟩ := concat_core junk h2 src none _ hn (Or.inr ho)
    refine ⟨s', ?_, ?_⟩
    · simp only [step, Str.copy, h1, Option.bind_some, h3, specStep]
      simp
    · simp only [specStep]
      simp only [Option.getD_none, List.length_nil, Nat.zero_add, List.nil_append, Nat.sub_zero] at h4
      rw [show (upToNul (src.take (upToNul src).length)) = upToNul src from ?_] at h4
      · exact h4
      · have := upToNul_take src (upToNul src).length (upToNul src).length (Nat.le_refl _)
        rw [List.take_length] at this
        refine Eq.trans (List.take_of_length_le ?_).symm this
        have := upToNul_len_le (src.take (upToNul src).length)
        rw [List.length_take] at this; omega
  | data =>
    exact ⟨s.data, rfl, ⟨h.mem, h.cap, h.cap16, h.grow, Or.inr ⟨rfl, ho⟩⟩⟩
  | reserve n e =>
    cases e with
    | true =>
      obtain ⟨h1, h2⟩ := reserve_exact_rep junk h n
      refine ⟨(s.reserve junk n true).1, ?_, ?_⟩
      · simp only [step, specStep, if_true, ← h2]
      · simpa [specStep] using h1
    | false =>
      obtain ⟨h1, h2, -⟩ := reserve_rep junk h n
      refine ⟨(s.reserve junk n false).1, ?_, ?_⟩
      · simp only [step, specStep, Bool.false_eq_true, if_false, ← h2]
      · simpa [specStep] using h1

end Clink.Str
