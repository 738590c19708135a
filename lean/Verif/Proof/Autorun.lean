import Verif.Spec.Autorun

/-! Entries of an AutoRun value. -/

namespace Clink.Autorun

open Spec
open Color (bs)

/-! ### Finding -/

theorem strstr_some {n v : List Nat} {k : Nat} (h : strstr n v = some k) : ∃ x y, v = x ++ n ++ y ∧ x.length = k := by
  induction v generalizing k with
  | nil =>
    unfold strstr at h
    split at h
    · rename_i hn
      cases h
      exact ⟨[], [], by simp [hn], rfl⟩
    · cases h
  | cons c l ih =>
    unfold strstr at h
    split at h
    · rename_i hp
      cases h
      obtain ⟨y, hy⟩ := List.isPrefixOf_iff_prefix.1 hp
      exact ⟨[], y, by simpa using hy.symm, rfl⟩
    · obtain ⟨j, hj, rfl⟩ := Option.map_eq_some_iff.1 h
      obtain ⟨x, y, rfl, rfl⟩ := ih hj
      exact ⟨c :: x, y, rfl, rfl⟩

theorem strstr_none {n v : List Nat} (h : strstr n v = none) (x y : List Nat) : v ≠ x ++ n ++ y := by
  induction v generalizing x with
  | nil =>
    intro he
    have hn : n = [] := by
      have := congrArg List.length he
      simp only [List.length_nil, List.length_append] at this
      exact List.length_eq_zero_iff.1 (by omega)
    unfold strstr at h
    rw [if_pos hn] at h
    cases h
  | cons c l ih =>
    intro he
    unfold strstr at h
    split at h
    · cases h
    · rename_i hp
      have h' : strstr n l = none := by simpa using h
      cases x with
      | nil =>
        apply hp
        rw [List.isPrefixOf_iff_prefix]
        exact ⟨y, by simpa using he.symm⟩
      | cons d x =>
        simp only [List.cons_append, List.cons.injEq] at he
        exact ih h' x he.2

theorem findTag_some {v : List Nat} {ns : List (List Nat)} {k : Nat} (h : findTag v ns = some k) : ∃ n ∈ ns, ∃ x y, v = x ++ n ++ y ∧ x.length = k := by
  induction ns with
  | nil => cases h
  | cons n ns ih =>
    unfold findTag at h
    split at h
    · rename_i hs
      cases h
      exact ⟨n, by simp, strstr_some hs⟩
    · obtain ⟨m, hm, r⟩ := ih h
      exact ⟨m, List.mem_cons_of_mem _ hm, r⟩

theorem findTag_none {v : List Nat} {ns : List (List Nat)} (h : findTag v ns = none) : ∀ n ∈ ns, ∀ x y, v ≠ x ++ n ++ y := by
  induction ns with
  | nil => simp
  | cons n ns ih =>
    unfold findTag at h
    split at h
    · cases h
    · rename_i hs
      intro m hm
      rcases List.mem_cons.1 hm with rfl | hm
      · exact strstr_none hs
      · exact ih h m hm

theorem calls_iff {v x y : List Nat} : Calls v x y ↔ ∃ n ∈ needles, v = x ++ n ++ y := by
  constructor
  · rintro ⟨p, hp, q, hq, rfl⟩
    refine ⟨p ++ q ++ bs " inject", ?_, by simp⟩
    simp only [List.mem_cons, List.not_mem_nil, or_false] at hp hq
    rcases hp with rfl | rfl | rfl | rfl | rfl <;> rcases hq with rfl | rfl <;> decide
  · rintro ⟨n, hn, rfl⟩
    have key : ∀ n ∈ needles, ∃ p ∈ [bs "clink", bs "clink_x64.exe", bs "clink_x86.exe", bs "clink_arm64.exe", bs "clink.bat"], ∃ q ∈ [[], bs "\""],
        n = p ++ q ++ bs " inject" := by decide
    obtain ⟨p, hp, q, hq, rfl⟩ := key n hn
    exact ⟨p, hp, q, hq, by simp⟩

theorem needle_ok : ∀ n ∈ needles, 38 ∉ n ∧ n.head? = some 99 := by decide

/-! ### Separators -/

theorem sep_infix {a b x n y : List Nat} (hn : 38 ∉ n) (hne : n ≠ []) (h : a ++ 38 :: b = x ++ n ++ y) :
    (∃ y', y = y' ++ 38 :: b ∧ a = x ++ n ++ y') ∨ ∃ x', x = a ++ 38 :: x' ∧ b = x' ++ n ++ y := by
  induction a generalizing x with
  | nil =>
    cases x with
    | nil =>
      cases n with
      | nil => exact absurd rfl hne
      | cons c n =>
        simp only [List.nil_append, List.cons_append, List.cons.injEq] at h
        exact absurd (by simp [h.1]) hn
    | cons c x =>
      simp only [List.nil_append, List.cons_append, List.cons.injEq] at h
      exact .inr ⟨x, by simp [h.1], h.2⟩
  | cons d a ih =>
    cases x with
    | nil =>
      left
      simp only [List.nil_append] at h ⊢
      rcases List.append_eq_append_iff.1 h with ⟨t, h1, h2⟩ | ⟨t, h1, h2⟩
      · -- `n` is longer
        cases t with
        | nil =>
          simp only [List.append_nil, List.nil_append] at h1 h2
          exact ⟨[], h2.symm, by simp [h1]⟩
        | cons e t =>
          simp only [List.cons_append, List.cons.injEq] at h2
          exact absurd (by rw [h1, ← h2.1]; simp) hn
      · exact ⟨t, h2, h1⟩
    | cons c x =>
      simp only [List.cons_append, List.cons.injEq] at h
      obtain ⟨rfl, h⟩ := h
      rcases ih h with ⟨y', h1, h2⟩ | ⟨x', h1, h2⟩
      · exact .inl ⟨y', h1, by simp [h2]⟩
      · exact .inr ⟨x', by simp [h1], h2⟩

/-- Calls are in the middle. -/
theorem calls_middle {pre e rest x y : List Nat} (hp : pre = [] ∨ ∃ a, pre = a ++ [38]) (hr : rest = [] ∨ ∃ b, rest = 38 :: b) (fp : Foreign pre) (fr : Foreign rest)
    (h : Calls (pre ++ e ++ rest) x y) : ∃ x' y', x = pre ++ x' ∧ y = y' ++ rest ∧ Calls e x' y' := by
  obtain ⟨n, hn, h⟩ := calls_iff.1 h
  obtain ⟨n1, n2⟩ := needle_ok n hn
  have hne : n ≠ [] := by rintro rfl; cases n2
  have step1 : ∃ x', x = pre ++ x' ∧ e ++ rest = x' ++ n ++ y := by
    rcases hp with rfl | ⟨a, rfl⟩
    · exact ⟨x, rfl, by simpa using h⟩
    · have h' : a ++ 38 :: (e ++ rest) = x ++ n ++ y := by simpa using h
      rcases sep_infix n1 hne h' with ⟨y', -, h2⟩ | ⟨x', h1, h2⟩
      · exact absurd (calls_iff.2 ⟨n, hn, by rw [h2]; simp⟩) (fp x (y' ++ [38]))
      · exact ⟨x', by simp [h1], h2⟩
  obtain ⟨x', hx, h'⟩ := step1
  rcases hr with rfl | ⟨b, rfl⟩
  · exact ⟨x', y, hx, by simp, calls_iff.2 ⟨n, hn, by simpa using h'⟩⟩
  · rcases sep_infix n1 hne h' with ⟨y', h1, h2⟩ | ⟨x2, -, h2⟩
    · exact ⟨x', y', hx, h1, calls_iff.2 ⟨n, hn, h2⟩⟩
    · exact absurd (calls_iff.2 ⟨n, hn, by rw [h2]; rfl⟩) (fr (38 :: x2) y)

/-! ### The ends of an entry -/

theorem left_skip (v : List Nat) (q : Bool) {k m : Nat} (hk : k ≤ m) (h : ∀ j, k < j → j ≤ m → v[j]? ≠ some (if q then 34 else 38)) :
    leftEnd v q m = leftEnd v q k := by
  induction m with
  | zero => rw [Nat.le_zero.1 hk]
  | succ m ih =>
    by_cases hkm : k = m + 1
    · rw [hkm]
    · rw [leftEnd, if_neg (h (m + 1) (by omega) (by omega))]
      exact ih (by omega) fun j h1 h2 => h j h1 (by omega)

theorem kept_pre {pre k : List Nat} (h : Kept pre k) : (pre = [] ∨ ∃ a, pre = a ++ [38]) ∧ ∃ t, pre = k ++ t := by
  cases h with
  | start => exact ⟨.inl rfl, [], rfl⟩
  | first => exact ⟨.inr ⟨[], rfl⟩, [38], rfl⟩
  | one => exact ⟨.inr ⟨_, rfl⟩, [38], rfl⟩
  | two => exact ⟨.inr ⟨k ++ [38], by simp⟩, [38, 38], rfl⟩

/-- From a quote leftwards. -/
theorem left_amp {pre s : List Nat} {k : List Nat} (hk : Kept pre k) {sp : List Nat} (hs : 38 ∉ sp) {c : Nat} (hc : c ≤ pre.length + sp.length - 1) (hc' : pre.length - 1 ≤ c) :
    leftEnd (pre ++ sp ++ s) false c = k.length := by
  have get : ∀ j, pre.length ≤ j → j < pre.length + sp.length → (pre ++ sp ++ s)[j]? ≠ some 38 := by
    intro j h1 h2 he
    rw [List.append_assoc, List.getElem?_append_right h1, List.getElem?_append_left (by omega)] at he
    exact hs (List.mem_of_getElem? he)
  rw [left_skip _ false (k := pre.length - 1) hc' (fun j h1 h2 => get j (by omega) (by
    cases sp with
    | nil => simp only [List.length_nil] at *; omega
    | cons d sp => simp only [List.length_cons] at *; omega))]
  cases hk with
  | start => rfl
  | first => rfl
  | one hne hl =>
    rw [List.length_append, List.length_singleton, Nat.add_sub_cancel]
    cases hlen : k.length with
    | zero => exact absurd (List.length_eq_zero_iff.1 hlen) hne
    | succ m =>
      have h1 : (k ++ [38] ++ sp ++ s)[m + 1]? = some 38 := by
        rw [← hlen]
        simp
      have h2 : (k ++ [38] ++ sp ++ s)[m]? ≠ some 38 := by
        rw [List.append_assoc, List.append_assoc, List.getElem?_append_left (by omega)]
        intro he
        apply hl
        rw [List.getLast?_eq_getElem?, hlen]
        exact he
      rw [leftEnd]
      simp only [Bool.false_eq_true, if_false]
      rw [if_pos h1, if_neg h2]
  | two =>
    have h1 : (k ++ [38, 38] ++ sp ++ s)[k.length + 1]? = some 38 := by
      rw [List.append_assoc, List.append_assoc, List.getElem?_append_right (by omega)]
      simp
    have h2 : (k ++ [38, 38] ++ sp ++ s)[k.length]? = some 38 := by
      rw [List.append_assoc, List.append_assoc, List.getElem?_append_right (by omega)]
      simp
    rw [List.length_append, show [38, 38].length = 2 from rfl, show k.length + 2 - 1 = k.length + 1 from rfl, leftEnd]
    simp only [Bool.false_eq_true, if_false]
    rw [if_pos h1, if_pos h2]

theorem left_entry {pre k sp p s : List Nat} (hk : Kept pre k) (hs : 38 ∉ sp) (hp : 34 ∉ p ∨ 38 ∉ p) (hh : s.head? ≠ some 34) :
    leftEnd (pre ++ (sp ++ 34 :: p) ++ s) true (pre ++ (sp ++ 34 :: p)).length = k.length := by
  -- the last quote
  obtain ⟨sp', p', e1, h34, h38⟩ : ∃ sp' p', sp ++ 34 :: p = sp' ++ 34 :: p' ∧ 34 ∉ p' ∧ 38 ∉ sp' := by
    rcases hp with hp | hp
    · exact ⟨sp, p, rfl, hp, hs⟩
    · have last : ∀ p : List Nat, 34 ∉ p ∨ ∃ a b, p = a ++ 34 :: b ∧ 34 ∉ b := by
        intro p
        induction p with
        | nil => exact .inl (by simp)
        | cons c p ih =>
          rcases ih with h | ⟨a, b, rfl, hb⟩
          · by_cases hc : c = 34
            · exact .inr ⟨[], p, by simp [hc], h⟩
            · exact .inl (by simp [h, Ne.symm hc])
          · exact .inr ⟨c :: a, b, rfl, hb⟩
      rcases last p with h | ⟨a, b, rfl, hb⟩
      · exact ⟨sp, p, rfl, h, hs⟩
      · refine ⟨sp ++ 34 :: a, b, by simp, hb, ?_⟩
        simp only [List.mem_append, List.mem_cons, not_or] at hp ⊢
        exact ⟨hs, by omega, hp.1⟩
  rw [e1]
  have hlen : (pre ++ (sp' ++ 34 :: p')).length = pre.length + sp'.length + 1 + p'.length := by simp; omega
  have get : ∀ j, pre.length + sp'.length < j → j ≤ pre.length + sp'.length + 1 + p'.length → (pre ++ (sp' ++ 34 :: p') ++ s)[j]? ≠ some 34 := by
    intro j h1 h2 he
    by_cases hj : j = pre.length + sp'.length + 1 + p'.length
    · rw [List.getElem?_append_right (by rw [hlen]; omega), hlen, hj, Nat.sub_self, ← List.head?_eq_getElem?] at he
      exact hh he
    · rw [List.getElem?_append_left (by rw [hlen]; omega), List.getElem?_append_right (by omega), List.getElem?_append_right (by omega)] at he
      have : j - pre.length - sp'.length = (j - pre.length - sp'.length - 1) + 1 := by omega
      rw [this, List.getElem?_cons_succ] at he
      exact h34 (List.mem_of_getElem? he)
  rw [hlen, left_skip _ true (k := pre.length + sp'.length) (by omega) get]
  have hq : (pre ++ (sp' ++ 34 :: p') ++ s)[pre.length + sp'.length]? = some 34 := by
    rw [List.append_assoc, List.getElem?_append_right (by omega), List.append_assoc, List.getElem?_append_right (by omega)]
    simp
  have hv : pre ++ (sp' ++ 34 :: p') ++ s = pre ++ sp' ++ (34 :: p' ++ s) := by simp
  cases hm : pre.length + sp'.length with
  | zero =>
    have hpre : pre = [] := List.length_eq_zero_iff.1 (by omega)
    obtain ⟨-, t, ht⟩ := kept_pre hk
    rw [hpre] at ht
    rw [(List.append_eq_nil_iff.1 ht.symm).1]
    rfl
  | succ m =>
    rw [leftEnd, ← hm]
    simp only [if_true]
    rw [if_pos hq, hv]
    exact left_amp hk h38 (by omega) (by omega)

theorem right_entry {x y rest : List Nat} {n : List Nat} (hn : 38 ∉ n) (hy : 38 ∉ y) (hr : rest = [] ∨ ∃ b, rest = 38 :: b) :
    rightEnd (x ++ (n ++ (y ++ rest))) x.length = (x ++ (n ++ y)).length := by
  unfold rightEnd
  rw [List.drop_left' rfl]
  have : (n ++ (y ++ rest)).takeWhile (· != 38) = n ++ y := by
    rw [← List.append_assoc, List.takeWhile_append_of_pos]
    · rcases hr with rfl | ⟨b, rfl⟩ <;> simp
    · intro c hc
      simp only [bne_iff_ne, ne_eq]
      rintro rfl
      rcases List.mem_append.1 hc with h | h
      · exact hn h
      · exact hy h
  rw [this]
  simp

theorem dir_entry {pre p s : List Nat} (hp : 34 ∉ p) : ((pre ++ 34 :: p ++ s).take (pre ++ 34 :: p).length).drop (dirStart (pre ++ 34 :: p ++ s) (pre ++ 34 :: p).length) = p := by
  have skip : ∀ (m k : Nat), k ≤ m → (∀ j, k ≤ j → j < m → (pre ++ 34 :: p ++ s)[j]? ≠ some 34) → dirStart (pre ++ 34 :: p ++ s) m = dirStart (pre ++ 34 :: p ++ s) k := by
    intro m
    induction m with
    | zero => intro k hk _; rw [Nat.le_zero.1 hk]
    | succ m ih =>
      intro k hk h
      by_cases hkm : k = m + 1
      · rw [hkm]
      · rw [dirStart, if_neg (h m (by omega) (by omega))]
        exact ih k (by omega) fun j h1 h2 => h j h1 (by omega)
  have hlen : (pre ++ 34 :: p).length = pre.length + 1 + p.length := by simp; omega
  have hd : dirStart (pre ++ 34 :: p ++ s) (pre ++ 34 :: p).length = pre.length + 1 := by
    rw [hlen, skip _ (pre.length + 1) (by omega), dirStart, if_pos]
    · rw [List.append_assoc, List.getElem?_append_right (by omega)]
      simp
    · intro j h1 h2 he
      rw [List.getElem?_append_left (by rw [hlen]; omega), List.getElem?_append_right (by omega)] at he
      have : j - pre.length = (j - pre.length - 1) + 1 := by omega
      rw [this, List.getElem?_cons_succ] at he
      exact hp (List.mem_of_getElem? he)
  rw [hd, List.take_left' rfl]
  rw [show pre ++ 34 :: p = (pre ++ [34]) ++ p by simp, List.drop_left' (by simp)]

/-! ### Commands -/

theorem gap_iff (c : Nat) : (isSpace c || c == 38) = true ↔ Gap c := by
  unfold isSpace Gap
  simp only [Bool.or_eq_true, Bool.and_eq_true, decide_eq_true_eq, beq_iff_eq]
  omega

theorem cmdStart_none {l : List Nat} (h : ∀ c ∈ l, Gap c) : cmdStart l = [] := by
  unfold cmdStart
  induction l with
  | nil => rfl
  | cons c l ih => rw [List.dropWhile_cons_of_pos (p := fun c => isSpace c || c == 38) ((gap_iff c).2 (h c (by simp)))]; exact ih fun d hd => h d (List.mem_cons_of_mem _ hd)

theorem cmdStart_some {lead w : List Nat} (hl : ∀ c ∈ lead, Gap c) (hw : ∀ c, w.head? = some c → ¬ Gap c) : cmdStart (lead ++ w) = w := by
  unfold cmdStart
  induction lead with
  | nil =>
    cases w with
    | nil => rfl
    | cons c w =>
      rw [List.nil_append, List.dropWhile_cons_of_neg]
      exact fun h => hw c rfl ((gap_iff c).1 h)
  | cons c l ih => rw [List.cons_append, List.dropWhile_cons_of_pos (p := fun c => isSpace c || c == 38) ((gap_iff c).2 (hl c (by simp)))]; exact ih fun d hd => hl d (List.mem_cons_of_mem _ hd)

/-- The entry is found. -/
theorem find_entry {pre k e rest : List Nat} (hk : Kept pre k) (he : IsEntry e) (hr : rest = [] ∨ ∃ b, rest = 38 :: b) (fp : Foreign pre) (fr : Foreign rest)
    {mine : Option (List Nat → Bool)} (hm : ∀ m, mine = some m → ∀ x y, Calls e x y → ∃ sp p, x = sp ++ 34 :: p ∧ 34 ∉ p ∧ m p = true) :
    findEntry mine (pre ++ e ++ rest) = some (k.length, (pre ++ e).length) := by
  obtain ⟨hpre, -⟩ := kept_pre hk
  unfold findEntry
  cases htag : findTag (pre ++ e ++ rest) needles with
  | none =>
    exfalso
    apply he.calls
    intro x y hc
    obtain ⟨n, hn, hv⟩ := calls_iff.1 hc
    exact findTag_none htag n hn (pre ++ x) (y ++ rest) (by rw [hv]; simp)
  | some tag =>
    obtain ⟨n, hn, x, y, hv, rfl⟩ := findTag_some htag
    obtain ⟨n1, n2⟩ := needle_ok n hn
    obtain ⟨x', y', rfl, rfl, hc⟩ := calls_middle hpre hr fp fr (calls_iff.2 ⟨n, hn, hv⟩)
    obtain ⟨hy, sp, p, rfl, hsp, hp⟩ := he.quoted x' y' hc
    have hl : leftEnd (pre ++ e ++ rest) true (pre ++ (sp ++ 34 :: p)).length = k.length := by
      rw [hv, List.append_assoc (pre ++ (sp ++ 34 :: p)) n]
      refine left_entry hk hsp hp ?_
      cases n with
      | nil => cases n2
      | cons c n => cases n2; simp
    have he' : pre ++ e = pre ++ (sp ++ 34 :: p) ++ (n ++ y') := by
      have : pre ++ e ++ rest = pre ++ (sp ++ 34 :: p) ++ (n ++ y') ++ rest := by rw [hv]; simp
      exact List.append_cancel_right this
    have hre : rightEnd (pre ++ e ++ rest) (pre ++ (sp ++ 34 :: p)).length = (pre ++ e).length := by
      rw [he', List.append_assoc (pre ++ (sp ++ 34 :: p)), List.append_assoc n]
      exact right_entry n1 hy hr
    simp only
    rw [hl, hre]
    cases mine with
    | none => rfl
    | some m =>
      simp only
      obtain ⟨sp2, p2, h1, h2, h3⟩ := hm m rfl _ _ hc
      have hdir : ((pre ++ e ++ rest).take (pre ++ (sp ++ 34 :: p)).length).drop (dirStart (pre ++ e ++ rest) (pre ++ (sp ++ 34 :: p)).length) = p2 := by
        rw [hv, h1, List.append_assoc (pre ++ (sp2 ++ 34 :: p2)) n]
        rw [show pre ++ (sp2 ++ 34 :: p2) = (pre ++ sp2) ++ 34 :: p2 by simp]
        exact dir_entry h2
      rw [hdir, h3, if_pos rfl]

theorem find_foreign {v : List Nat} (h : Foreign v) (mine : Option (List Nat → Bool)) : findEntry mine v = none := by
  unfold findEntry
  cases htag : findTag v needles with
  | none => rfl
  | some tag =>
    obtain ⟨n, hn, x, y, hv, -⟩ := findTag_some htag
    exact absurd (calls_iff.2 ⟨n, hn, hv⟩) (h x y)

end Clink.Autorun
