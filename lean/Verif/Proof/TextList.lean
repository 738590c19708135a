import Verif.Spec.TextList

/-! Proofs about the popup list. -/

namespace Clink.TextList

open Spec (Good Margin First)

variable {ι : Type}

/-- Everything about the lists that does not depend on the selection. -/
structure Core (c : Cfg) (s : T ι) : Prop where
  vis : 0 < s.vis
  orig : s.orig = s.items.length
  pos : 0 < s.items.length
  all : s.fstr = [] → s.count = s.orig ∧ s.filtered = []
  some : s.fstr ≠ [] → s.count = s.filtered.length ∧ s.filter = true ∧ c.win = false
  inb : ∀ i ∈ s.filtered, i < s.items.length
  sorted : s.filtered.Pairwise (· < ·)
  saved : s.fstr ≠ [] → 0 ≤ s.savedIndex ∧ s.savedIndex < s.orig ∧ 0 ≤ s.savedTop ∧ (s.savedTop = 0 ∨ s.savedTop + s.vis ≤ s.orig)
  inf : ∀ l, s.infos = Option.some l → l.length = s.items.length

/-- The selection before the list is scrolled. -/
def Pre (s : T ι) : Prop :=
  (s.count = 0 ∧ s.index = 0 ∧ s.top = 0) ∨
  (0 ≤ s.index ∧ s.index < s.count ∧ 0 ≤ s.top ∧ (s.top = 0 ∨ s.top + s.vis ≤ s.count))

theorem Good.pre {s : T ι} (h : Good s.count s.index s.top s.vis) : Pre s := by
  unfold Good at h
  unfold Pre
  omega

theorem setTop_eq (s : T ι) (t : Int) (g : Bool) :
    ∃ g', setTop s t g = { s with top := t, ignore := g' } ∧ (g = false → s.ignore = false → g' = false) := by
  unfold setTop
  by_cases h : t ≠ s.top
  · rw [if_pos h]; exact ⟨g, rfl, fun h _ => h⟩
  · rw [if_neg h]
    have h : t = s.top := by omega
    subst h
    exact ⟨s.ignore, rfl, fun _ h => h⟩

theorem reveal_eq (s : T ι) (hv : 0 < s.vis) (hp : Pre s) :
    ∃ t g, reveal s = { s with top := t, ignore := g } ∧ Good s.count s.index t s.vis ∧ (s.ignore = false → g = false) := by
  unfold Pre at hp
  unfold reveal
  simp only []
  by_cases h : s.top > s.index
  · rw [if_pos h]
    obtain ⟨g, e, hg⟩ := setTop_eq s s.index false
    exact ⟨_, g, e, by unfold Good; omega, hg rfl⟩
  · rw [if_neg h]
    by_cases h2 : s.top < max 0 (s.index - max (min s.count s.vis - 1) 0)
    · rw [if_pos h2]
      obtain ⟨g, e, hg⟩ := setTop_eq s (max 0 (s.index - max (min s.count s.vis - 1) 0)) false
      exact ⟨_, g, e, by unfold Good; omega, hg rfl⟩
    · rw [if_neg h2]
      exact ⟨s.top, s.ignore, rfl, by unfold Good; omega, id⟩

theorem scrollOfs_le (c : Cfg) (s : T ι) (hv : 0 < s.vis) : 0 ≤ scrollOfs c s ∧ 2 * scrollOfs c s + 1 ≤ s.vis := by
  unfold scrollOfs
  split <;> omega

theorem updateTop_eq (c : Cfg) (s : T ι) (hv : 0 < s.vis) (hp : Pre s) :
    ∃ t g, updateTop c s = { s with top := t, ignore := g } ∧ Good s.count s.index t s.vis ∧
      (s.ignore = false → Margin s.count s.index t s.vis (scrollOfs c s)) := by
  obtain ⟨t, g, e, hg, hi⟩ := reveal_eq s hv hp
  unfold updateTop
  rw [e]
  simp only []
  have ho := scrollOfs_le c s hv
  have eo : scrollOfs c { s with top := t, ignore := g } = scrollOfs c s := rfl
  rw [eo]
  generalize scrollOfs c s = o at *
  by_cases hig : g = true
  · rw [if_pos hig]
    refine ⟨t, g, rfl, hg, fun h => ?_⟩
    rw [hi h] at hig
    cases hig
  · rw [if_neg hig]
    by_cases h0 : o > 0
    · rw [if_pos h0]
      by_cases h1 : t > max 0 (s.index - o)
      · rw [if_pos h1]
        obtain ⟨g', e', _⟩ := setTop_eq { s with top := t, ignore := g } (max 0 (s.index - o)) false
        refine ⟨_, g', e', ?_, fun _ => ?_⟩
        · unfold Good at *; omega
        · unfold Good at hg; unfold Margin; omega
      · rw [if_neg h1]
        by_cases h2 : t < min (max 0 (s.count - min s.count s.vis)) (s.index + o - min s.count s.vis + 1)
        · rw [if_pos h2]
          obtain ⟨g', e', _⟩ := setTop_eq { s with top := t, ignore := g }
            (max 0 (min (max 0 (s.count - min s.count s.vis)) (s.index + o - min s.count s.vis + 1))) false
          refine ⟨_, g', e', ?_, fun _ => ?_⟩
          · unfold Good at *; omega
          · unfold Good at hg; unfold Margin; omega
        · rw [if_neg h2]
          refine ⟨t, g, rfl, hg, fun _ => ?_⟩
          unfold Good at hg; unfold Margin; omega
    · rw [if_neg h0]
      refine ⟨t, g, rfl, hg, fun _ => ?_⟩
      unfold Good at hg; unfold Margin; omega

theorem Core.count_nonneg {c : Cfg} {s : T ι} (h : Core c s) : 0 ≤ s.count := by
  by_cases hf : s.fstr = []
  · rw [(h.all hf).1, h.orig]; omega
  · rw [(h.some hf).1]; omega

theorem display_updateTop (c : Cfg) (s : T ι) (h : Core c s) : display c s = updateTop c s := by
  unfold display
  simp only []
  have h1 := h.vis
  have h2 := h.orig
  have h3 := h.pos
  by_cases hf : s.fstr = []
  · have := (h.all hf).1
    exact if_pos ⟨.inl h1, .inl (by omega)⟩
  · exact if_pos ⟨.inl h1, .inr ⟨by omega, hf⟩⟩

theorem display_eq (c : Cfg) (s : T ι) (h : Core c s) (hp : Pre s) :
    ∃ t g, display c s = { s with top := t, ignore := g } ∧ Good s.count s.index t s.vis ∧
      (s.ignore = false → Margin s.count s.index t s.vis (scrollOfs c s)) := by
  rw [display_updateTop c s h]
  exact updateTop_eq c s h.vis hp

theorem Core.sel {c : Cfg} {s : T ι} (h : Core c s) (i t : Int) (g : Bool) :
    Core c { s with index := i, top := t, ignore := g } := ⟨h.1, h.2, h.3, h.4, h.5, h.6, h.7, h.8, h.9⟩

/-- The invariant. -/
def Inv (c : Cfg) (s : T ι) : Prop := Core c s ∧ Good s.count s.index s.top s.vis

theorem display_inv (c : Cfg) (s : T ι) (h : Core c s) (hp : Pre s) : Inv c (display c s) := by
  obtain ⟨t, g, e, hg, _⟩ := display_eq c s h hp
  rw [e]
  exact ⟨h.sel s.index t g, hg⟩

theorem navigated_inv (c : Cfg) (s : T ι) (h : Core c s)
    (hp : Pre { s with index := max 0 s.index }) : Inv c (navigated c s) :=
  display_inv c _ (h.sel _ s.top s.ignore) hp

/-! Searching -/

theorem advance_mod (n i dir : Int) (hd : dir = 1 ∨ dir = -1) (h0 : 0 ≤ i) (h1 : i < n) :
    advance i dir n = (i + dir) % n := by
  unfold advance
  rcases hd with rfl | rfl
  · rw [if_neg (by omega)]
    by_cases h : i + 1 ≥ n
    · rw [if_pos h]
      have : i + 1 = n := by omega
      rw [this, Int.emod_self]
    · rw [if_neg h, Int.emod_eq_of_lt (by omega) (by omega)]
  · rw [if_pos (by omega)]
    by_cases h : i + -1 < 0
    · rw [if_pos h]
      have : i + -1 = -1 := by omega
      rw [this]
      have : (-1 : Int) % n = (-1 + n) % n := (Int.add_emod_right ..).symm
      rw [this, Int.emod_eq_of_lt (by omega) (by omega)]
      omega
    · rw [if_neg h, Int.emod_eq_of_lt (by omega) (by omega)]

theorem mod_ne (n start dir : Int) (k : Nat) (hd : dir = 1 ∨ dir = -1) (h0 : 0 ≤ start) (h1 : start < n)
    (hk : 0 < k) (hk2 : (k : Int) < n) : (start + dir * k) % n ≠ start := by
  intro h
  have h2 : (start + dir * k) % n = start % n := by rw [h, Int.emod_eq_of_lt h0 h1]
  have h3 : n ∣ (start + dir * k) - start := Int.dvd_of_emod_eq_zero (Int.emod_eq_emod_iff_emod_sub_eq_zero.mp h2)
  have h4 : n ∣ (k : Int) := by
    rcases hd with rfl | rfl
    · have : start + 1 * (k : Int) - start = k := by omega
      rwa [this] at h3
    · have : start + -1 * (k : Int) - start = -k := by omega
      rw [this] at h3
      exact Int.dvd_neg.mp h3
  have := Int.le_of_dvd (by omega) h4
  omega

theorem findLoop_eq (m : Int → Option Bool) (p : Int → Bool) (n start dir : Int) (hd : dir = 1 ∨ dir = -1)
    (h0 : 0 ≤ start) (h1 : start < n) (hm : ∀ i, 0 ≤ i → i < n → m i = some (p i)) :
    ∀ (fuel k : Nat), (k : Int) < n → n ≤ k + fuel → (∀ j : Nat, j < k → p ((start + dir * j) % n) = false) →
      ∃ r, findLoop m dir n start fuel ((start + dir * k) % n) = some r ∧
        match r with
        | some i => First p n start dir i
        | none => ∀ i, 0 ≤ i → i < n → p i = false := by
  intro fuel
  induction fuel with
  | zero => intro k h2 h3; omega
  | succ f ih =>
    intro k h2 h3 hp
    have hn : 0 < n := by omega
    have hi0 := Int.emod_nonneg (start + dir * k) (show n ≠ 0 by omega)
    have hi1 := Int.emod_lt_of_pos (start + dir * k) hn
    unfold findLoop
    rw [hm _ hi0 hi1]
    by_cases hpk : p ((start + dir * k) % n) = true
    · rw [hpk]
      exact ⟨_, rfl, k, h2, rfl, hpk, hp⟩
    · have hpk : p ((start + dir * k) % n) = false := by simpa using hpk
      rw [hpk]
      simp only []
      have hp' : ∀ j : Nat, j < k + 1 → p ((start + dir * j) % n) = false := by
        intro j hj
        by_cases e : j = k
        · rw [e]; exact hpk
        · exact hp j (by omega)
      have ea : advance ((start + dir * k) % n) dir n = (start + dir * (k + 1 : Nat)) % n := by
        rw [advance_mod n _ dir hd hi0 hi1, Int.emod_add_emod]
        congr 1
        rcases hd with rfl | rfl <;> omega
      rw [ea]
      by_cases hs : (start + dir * (k + 1 : Nat)) % n = start
      · rw [if_pos hs]
        refine ⟨none, rfl, ?_⟩
        have hk : ((k + 1 : Nat) : Int) = n := by
          by_cases e : ((k + 1 : Nat) : Int) < n
          · exact absurd hs (mod_ne n start dir (k + 1) hd h0 h1 (by omega) e)
          · omega
        intro i hi hin
        -- every item is met
        rcases hd with rfl | rfl
        · have := hp' ((i - start) % n).toNat (by
            have := Int.emod_nonneg (i - start) (show n ≠ 0 by omega)
            have := Int.emod_lt_of_pos (i - start) hn
            omega)
          rw [Int.toNat_of_nonneg (Int.emod_nonneg _ (by omega)), Int.one_mul, Int.add_emod_emod] at this
          have e : start + (i - start) = i := by omega
          rwa [e, Int.emod_eq_of_lt hi hin] at this
        · have := hp' ((start - i) % n).toNat (by
            have := Int.emod_nonneg (start - i) (show n ≠ 0 by omega)
            have := Int.emod_lt_of_pos (start - i) hn
            omega)
          rw [Int.toNat_of_nonneg (Int.emod_nonneg _ (by omega))] at this
          have e1 : start + -1 * ((start - i) % n) = start - (start - i) % n := by omega
          rw [e1, Int.sub_emod_emod] at this
          have e : start - (start - i) = i := by omega
          rwa [e, Int.emod_eq_of_lt hi hin] at this
      · rw [if_neg hs]
        have hk : ((k + 1 : Nat) : Int) < n := by
          by_cases e : ((k + 1 : Nat) : Int) < n
          · exact e
          · have e : ((k + 1 : Nat) : Int) = n := by omega
            exfalso
            apply hs
            rw [e]
            rcases hd with rfl | rfl
            · rw [Int.one_mul, Int.add_emod_right, Int.emod_eq_of_lt h0 h1]
            · have : start + -1 * n = start - n := by omega
              rw [this, Int.sub_emod_right, Int.emod_eq_of_lt h0 h1]
        exact ih (k + 1) hk (by omega) hp'

theorem First.range {p : Int → Bool} {n start dir i : Int} (h : First p n start dir i) : 0 ≤ i ∧ i < n := by
  obtain ⟨k, hk, e, _⟩ := h
  rw [e]
  exact ⟨Int.emod_nonneg _ (by omega), Int.emod_lt_of_pos _ (by omega)⟩

theorem jump_eq (s : T ι) (i : Int) : ∃ t, jump s i = { s with index := i, top := t } ∧
    (t = s.top ∨ (t = max 0 (min (i - s.vis / 2) (s.count - s.vis)))) := by
  unfold jump
  split
  · exact ⟨_, rfl, .inr rfl⟩
  · exact ⟨s.top, rfl, .inl rfl⟩

theorem jump_inv (c : Cfg) (s : T ι) (h : Core c s) (hg : Good s.count s.index s.top s.vis) (i : Int) (h0 : 0 ≤ i)
    (h1 : i < s.count) : Inv c (display c (jump s i)) := by
  obtain ⟨t, e, ht⟩ := jump_eq s i
  rw [e]
  have hv := h.vis
  exact display_inv c _ (h.sel i t s.ignore) (by unfold Good at hg; unfold Pre; simp only []; omega)

/-! Items -/

theorem original_of (c : Cfg) (s : T ι) (h : Core c s) (i : Int) (h0 : 0 ≤ i) (h1 : i < s.count) :
    ∃ o, original s i = some o ∧ o < s.items.length := by
  unfold original
  rw [if_neg (by omega)]
  by_cases hf : s.fstr = []
  · have h2 := (h.all hf).1
    have h3 := h.orig
    rw [if_neg (by simpa using hf)]
    exact ⟨_, rfl, by omega⟩
  · have h2 := (h.some hf).1
    have h3 : i.toNat < s.filtered.length := by omega
    rw [if_pos hf, List.getElem?_eq_getElem h3]
    exact ⟨_, rfl, h.inb _ (List.getElem_mem h3)⟩

theorem itemAt_of (c : Cfg) (s : T ι) (h : Core c s) (i : Int) (h0 : 0 ≤ i) (h1 : i < s.count) :
    ∃ x, itemAt s i = some x := by
  obtain ⟨o, e, ho⟩ := original_of c s h i h0 h1
  exact ⟨s.items[o], by rw [itemAt, e]; exact List.getElem?_eq_getElem ho⟩

/-! Filtering -/

theorem clearFilter_core (c : Cfg) (s : T ι) (h : Core c s) :
    Core c (clearFilter s) ∧ (clearFilter s).fstr = [] := by
  unfold clearFilter
  by_cases hf : s.fstr ≠ []
  · rw [if_pos hf]
    obtain ⟨g, e, _⟩ := setTop_eq { s with count := s.orig, fstr := [], filtered := [], index := s.savedIndex, ignore := false }
      s.savedTop false
    rw [e]
    exact ⟨⟨h.vis, h.orig, h.pos, fun _ => ⟨rfl, rfl⟩, fun h => absurd rfl h, fun _ h => absurd h (by simp), List.Pairwise.nil,
      fun h => absurd rfl h, h.inf⟩, rfl⟩
  · rw [if_neg hf]
    exact ⟨h, by simpa using hf⟩

theorem clearFilter_pre (c : Cfg) (s : T ι) (h : Core c s) (hg : Good s.count s.index s.top s.vis) : Pre (clearFilter s) := by
  unfold clearFilter
  by_cases hf : s.fstr ≠ []
  · rw [if_pos hf]
    obtain ⟨g, e, _⟩ := setTop_eq { s with count := s.orig, fstr := [], filtered := [], index := s.savedIndex, ignore := false }
      s.savedTop false
    rw [e]
    have := h.saved hf
    unfold Pre
    simp only []
    omega
  · rw [if_neg hf]
    exact Good.pre hg

theorem newFiltered_ok (hit : List Nat → ι → Bool) (c : Cfg) (s : T ι) (h : Core c s) :
    (∀ i ∈ newFiltered hit s, i < s.items.length) ∧ (newFiltered hit s).Pairwise (· < ·) := by
  unfold newFiltered
  simp only []
  split
  · exact ⟨fun i hi => h.inb i (List.mem_filter.mp hi).1, h.sorted.filter _⟩
  · exact ⟨fun i hi => List.mem_range.mp (List.mem_filter.mp hi).1, List.Pairwise.filter _ List.pairwise_lt_range⟩

theorem filterItems_inv (hit : List Nat → ι → Bool) (c : Cfg) (intr : Bool) (s : T ι) (h : Core c s)
    (hg : Good s.count s.index s.top s.vis) (hfilt : s.filter = true) (hw : c.win = false) :
    Core c (filterItems hit c intr s).2 ∧ Pre (filterItems hit c intr s).2 ∧
      ((filterItems hit c intr s).1 = false → (filterItems hit c intr s).2 = s) := by
  unfold filterItems
  by_cases h1 : s.fstr = s.needle
  · rw [if_pos h1]; exact ⟨h, Good.pre hg, fun _ => rfl⟩
  rw [if_neg h1]
  by_cases h2 : s.needle = []
  · rw [if_pos h2]; exact ⟨(clearFilter_core c s h).1, clearFilter_pre c s h hg, fun h => by cases h⟩
  rw [if_neg h2]
  by_cases h3 : intr = true
  · rw [if_pos h3]; exact ⟨h, Good.pre hg, fun _ => rfl⟩
  rw [if_neg h3]
  simp only []
  obtain ⟨n1, n2⟩ := newFiltered_ok hit c s h
  generalize newFiltered hit s = l at *
  refine ⟨?_, ?_, fun h => by cases h⟩ <;>
  · generalize hs1 : (if s.fstr = [] then { s with savedIndex := s.index, savedTop := s.top } else s) = s1
    have hv : s1.vis = s.vis ∧ s1.orig = s.orig ∧ s1.items = s.items ∧ s1.filter = s.filter ∧ s1.infos = s.infos ∧
        (0 ≤ s1.savedIndex ∧ s1.savedIndex < s1.orig ∧ 0 ≤ s1.savedTop ∧ (s1.savedTop = 0 ∨ s1.savedTop + s1.vis ≤ s1.orig)) := by
      subst hs1
      by_cases hf : s.fstr = []
      · rw [if_pos hf]
        have e := (h.all hf).1
        have := h.orig
        have := h.pos
        unfold Good at hg
        refine ⟨rfl, rfl, rfl, rfl, rfl, ?_⟩
        simp only []
        omega
      · rw [if_neg hf]
        exact ⟨rfl, rfl, rfl, rfl, rfl, h.saved hf⟩
    obtain ⟨v1, v2, v3, v4, v6, v5⟩ := hv
    obtain ⟨g, e, _⟩ := setTop_eq { s1 with filtered := l, count := (l.length : Int), fstr := s.needle,
                                            index := if c.reverse then max 0 ((l.length : Int) - 1) else 0 } 0 false
    have hv := h.vis
    generalize hj : (if c.reverse = true then max 0 ((l.length : Int) - 1) else 0) = j at e
    have hj' : 0 ≤ j ∧ (j < l.length ∨ (l.length : Int) = 0 ∧ j = 0) := by
      rw [← hj]
      split <;> omega
    obtain ⟨t, g', e', hg', _⟩ := updateTop_eq c { s1 with filtered := l, count := (l.length : Int), fstr := s.needle, index := j, top := 0, ignore := g }
      (by simp only []; omega)
      (show ((l.length : Int) = 0 ∧ j = 0 ∧ (0 : Int) = 0) ∨ (0 ≤ j ∧ j < (l.length : Int) ∧ (0 : Int) ≤ 0 ∧ ((0 : Int) = 0 ∨ (0 : Int) + s1.vis ≤ l.length)) by omega)
    rw [e, e']
    first
    | exact ⟨by simp only []; omega, by simp only []; rw [v2, v3]; exact h.orig, by simp only []; rw [v3]; exact h.pos,
        fun hh => absurd hh h2, fun _ => ⟨rfl, by simp only []; rw [v4]; exact hfilt, hw⟩, by simp only []; rw [v3]; exact n1, n2, fun _ => v5, by simp only []; rw [v3, v6]; exact h.inf⟩
    | exact Good.pre hg'

/-! One event -/

theorem doFind_inv (hit start : List Nat → ι → Bool) (c : Cfg) (intr : Bool) (dir : Int) (hd : dir = 1 ∨ dir = -1)
    (fb adv : Bool) (s : T ι) (h : Core c s) (hp : Pre s) (hgf : s.filter = true → Good s.count s.index s.top s.vis) :
    ∃ r, doFind hit start c intr dir fb adv s = some r ∧ Core c r.2 ∧ Pre r.2 ∧
      (Good s.count s.index s.top s.vis → r.1 = false → Good r.2.count r.2.index r.2.top r.2.vis) := by
  unfold doFind
  by_cases hn : s.notFound = true
  · rw [if_pos hn]; exact ⟨_, rfl, h, hp, fun hg _ => hg⟩
  rw [if_neg hn]
  by_cases hf : s.filter = true ∧ ¬ c.win = true
  · rw [if_pos hf]
    obtain ⟨a, b, d⟩ := filterItems_inv hit c intr s h (hgf hf.1) hf.1 (by simpa using hf.2)
    exact ⟨_, rfl, a, b, fun hg hh => by rw [d hh]; exact hg⟩
  · rw [if_neg hf]
    simp only []
    have hfs : s.fstr = [] := by
      by_cases e : s.fstr = []
      · exact e
      · have := h.some e
        exact absurd ⟨this.2.1, by simp [this.2.2]⟩ hf
    have hc := (h.all hfs).1
    have ho := h.orig
    have hpos := h.pos
    have hdir : (if c.reverse = true then 0 - dir else dir) = 1 ∨ (if c.reverse = true then 0 - dir else dir) = -1 := by
      split <;> omega
    generalize (if c.reverse = true then 0 - dir else dir) = d at *
    have hi0 : ∃ i, i = (if fb = true then (if c.reverse = true then s.count - 1 else 0) else s.index) ∧ 0 ≤ i ∧ i < s.count := by
      refine ⟨_, rfl, ?_⟩
      unfold Pre at hp
      split
      · split <;> omega
      · omega
    obtain ⟨i, e, i0, i1⟩ := hi0
    rw [← e]
    have hst : ∃ st, st = (if adv = true then advance i d s.count else i) ∧ 0 ≤ st ∧ st < s.count := by
      refine ⟨_, rfl, ?_⟩
      split
      · rw [advance_mod s.count i d hdir i0 i1]
        exact ⟨Int.emod_nonneg _ (by omega), Int.emod_lt_of_pos _ (by omega)⟩
      · exact ⟨i0, i1⟩
    obtain ⟨st, e2, s0, s1⟩ := hst
    rw [← e2]
    obtain ⟨r, er, hr⟩ := findLoop_eq (fun i => (itemAt s i).map (if c.win = true then start s.needle else hit s.needle))
      (fun i => ((itemAt s i).map (if c.win = true then start s.needle else hit s.needle)).getD false) s.count st d hdir s0 s1
      (by
        intro i a b
        obtain ⟨x, ex⟩ := itemAt_of c s h i a b
        simp only [ex, Option.map_some, Option.getD_some])
      s.count.toNat 0 (by simp only [Int.natCast_zero]; omega) (by omega) (by intro j hj; omega)
    have e0 : (st + d * ((0 : Nat) : Int)) % s.count = st := by
      simp only [Int.natCast_zero, Int.mul_zero, Int.add_zero]
      exact Int.emod_eq_of_lt s0 s1
    rw [e0] at er
    rw [er]
    cases r with
    | some j =>
      have hj := First.range hr
      obtain ⟨t, e, ht⟩ := jump_eq s j
      refine ⟨_, rfl, ?_, ?_, fun _ hh => by cases hh⟩
      · simp only [Option.map_some, e]; exact h.sel j t s.ignore
      · simp only [Option.map_some, e]
        unfold Pre at *; simp only []; omega
    | none =>
      simp only [Option.map_some]
      refine ⟨_, rfl, ?_⟩
      by_cases hc2 : ¬ s.filter = true ∧ ¬ c.win = true
      · simp only [if_pos hc2]
        exact ⟨⟨h.1, h.2, h.3, h.4, h.5, h.6, h.7, h.8, h.9⟩, hp, fun hg _ => hg⟩
      · simp only [if_neg hc2]
        exact ⟨h, hp, fun hg _ => hg⟩

theorem found_inv (c : Cfg) (need : Bool) (r : Bool × T ι) (h : Core c r.2) (hp : Pre r.2)
    (hg : need = false → r.1 = false → Good r.2.count r.2.index r.2.top r.2.vis) : Inv c (found c need r) := by
  unfold found
  by_cases hh : r.1 = true ∨ need = true
  · rw [if_pos hh]; exact display_inv c _ h hp
  · rw [if_neg hh]
    exact ⟨h, hg (by cases need <;> simp_all) (by cases e : r.1 <;> simp_all)⟩

theorem search_inv (hit start : List Nat → ι → Bool) (c : Cfg) (intr fb : Bool) (s : T ι) (h : Core c s) (hp : Pre s)
    (hgf : s.filter = true → Good s.count s.index s.top s.vis) :
    ∃ s', search hit start c intr fb s = some s' ∧ Inv c s' := by
  unfold search
  have hd := display_inv c s h hp
  split
  · split
    · exact ⟨_, rfl, hd⟩
    · obtain ⟨r, e, a, b, _⟩ := doFind_inv hit start c intr 1 (.inl rfl) fb false s h hp hgf
      rw [e]
      exact ⟨_, rfl, found_inv c true r a b (fun hh => by cases hh)⟩
  · split
    · obtain ⟨r, e, a, b, _⟩ := doFind_inv hit start c intr 1 (.inl rfl) fb true s h hp hgf
      rw [e]
      exact ⟨_, rfl, found_inv c true r a b (fun hh => by cases hh)⟩
    · exact ⟨_, rfl, hd⟩

/-! Deleting -/

/-- The list of positions after one is taken away. -/
def shrink (l : List Nat) (o : Nat) : List Nat := (l.eraseIdx o).mapIdx fun i x => if o ≤ i then x - 1 else x

theorem shrink_length (l : List Nat) (o : Nat) (h : o < l.length) : (shrink l o).length = l.length - 1 := by
  simp [shrink, List.length_eraseIdx_of_lt h]

theorem sorted_lt (l : List Nat) (hs : l.Pairwise (· < ·)) (i j x y : Nat) (h : i < j) (hi : l[i]? = some x) (hj : l[j]? = some y) :
    x < y := by
  obtain ⟨hi', ei⟩ := List.getElem?_eq_some_iff.mp hi
  obtain ⟨hj', ej⟩ := List.getElem?_eq_some_iff.mp hj
  have := (List.pairwise_iff_getElem.mp hs) i j hi' hj' h
  omega

theorem shrink_getElem? (l : List Nat) (o i : Nat) :
    (shrink l o)[i]? = if i < o then l[i]? else (l[i + 1]?).map (· - 1) := by
  unfold shrink
  rw [List.getElem?_mapIdx, List.getElem?_eraseIdx]
  by_cases h : i < o
  · rw [if_pos h, if_pos h]
    have : ¬ o ≤ i := by omega
    simp [this]
  · rw [if_neg h, if_neg h]
    have : o ≤ i := by omega
    simp [this]

theorem shrink_at {α : Type} (l : List Nat) (hs : l.Pairwise (· < ·)) (o e : Nat) (he : l[o]? = some e) (h : List α) (i : Nat) :
    ((shrink l o)[i]?).bind ((h.eraseIdx e)[·]?) = (if i < o then l[i]? else l[i + 1]?).bind (h[·]?) := by
  rw [shrink_getElem?]
  by_cases hi : i < o
  · rw [if_pos hi, if_pos hi]
    cases ex : l[i]? with
    | none => rfl
    | some x =>
      have := sorted_lt l hs i o x e hi ex he
      simp only [Option.bind_some]
      rw [List.getElem?_eraseIdx, if_pos this]
  · rw [if_neg hi, if_neg hi]
    cases ex : l[i + 1]? with
    | none => rfl
    | some x =>
      have := sorted_lt l hs o (i + 1) e x (by omega) he ex
      simp only [Option.map_some, Option.bind_some]
      rw [List.getElem?_eraseIdx, if_neg (by omega)]
      have : x - 1 + 1 = x := by omega
      rw [this]

theorem shrink_sorted (l : List Nat) (hs : l.Pairwise (· < ·)) (o e : Nat) (he : l[o]? = some e) :
    (shrink l o).Pairwise (· < ·) := by
  rw [List.pairwise_iff_getElem]
  intro i j hi hj hij
  have ei := List.getElem?_eq_getElem hi
  have ej := List.getElem?_eq_getElem hj
  generalize (shrink l o)[i] = x at *
  generalize (shrink l o)[j] = y at *
  rw [shrink_getElem?] at ei ej
  by_cases h1 : i < o
  · rw [if_pos h1] at ei
    by_cases h2 : j < o
    · rw [if_pos h2] at ej
      exact sorted_lt l hs i j x y hij ei ej
    · rw [if_neg h2] at ej
      obtain ⟨y', ey, rfl⟩ := Option.map_eq_some_iff.mp ej
      have a := sorted_lt l hs i o x e h1 ei he
      have b := sorted_lt l hs o (j + 1) e y' (by omega) he ey
      omega
  · rw [if_neg h1] at ei
    rw [if_neg (by omega)] at ej
    obtain ⟨x', ex, rfl⟩ := Option.map_eq_some_iff.mp ei
    obtain ⟨y', ey, rfl⟩ := Option.map_eq_some_iff.mp ej
    have a := sorted_lt l hs o (i + 1) e x' (by omega) he ex
    have b := sorted_lt l hs (i + 1) (j + 1) x' y' (by omega) ex ey
    omega

theorem settle_inv (c : Cfg) (s : T ι) (h : Core c s) (hp : 0 < s.count) (h0 : 0 ≤ s.index) (h1 : s.index ≤ s.count) :
    Inv c (settle c s) := by
  unfold settle
  simp only []
  generalize hi : (if ¬ c.delUp = true then (if s.index ≥ s.count then s.count - 1 else s.index)
    else (if s.index > 0 then s.index - 1 else s.index)) = i
  have hi' : 0 ≤ i ∧ i < s.count := by
    rw [← hi]
    split
    · split <;> omega
    · split <;> omega
  generalize (if (if (if i - s.top ≥ s.vis - 1 then s.vis - 2 else i - s.top) ≤ 0 then 1
      else (if i - s.top ≥ s.vis - 1 then s.vis - 2 else i - s.top)) ≥ s.vis then 0
    else (if (if i - s.top ≥ s.vis - 1 then s.vis - 2 else i - s.top) ≤ 0 then 1
      else (if i - s.top ≥ s.vis - 1 then s.vis - 2 else i - s.top))) = d
  generalize ht : (if max 0 (i - d) > max 0 (s.count - s.vis) then max 0 (s.count - s.vis) else max 0 (i - d)) = t
  have ht' : 0 ≤ t ∧ t ≤ max 0 (s.count - s.vis) := by
    rw [← ht]
    split <;> omega
  obtain ⟨g, e, _⟩ := setTop_eq { s with index := i, ignore := false } t false
  rw [e]
  refine display_inv c _ (h.sel i t g) ?_
  unfold Pre
  simp only []
  omega

/-- An item is removed from the whole list. -/
theorem erase_core (c : Cfg) (s : T ι) (h : Core c s) (hf : s.fstr = []) (o : Nat) (ho : o < s.items.length) (h1 : s.orig - 1 ≠ 0) :
    Core c (erase s o) := by
  have e1 := h.orig
  have e2 := h.all hf
  have l1 : (s.items.eraseIdx o).length = s.items.length - 1 := List.length_eraseIdx_of_lt ho
  unfold erase
  rw [e2.2]
  refine ⟨h.vis, ?_, ?_, fun _ => ⟨?_, ?_⟩, fun hh => absurd hf hh, ?_, ?_, fun hh => absurd hf hh, ?_⟩
  · simp only []; omega
  · simp only []; omega
  · simp only []; omega
  · simp
  · simp
  · simp
  · intro l hl
    simp only [Option.map_eq_some_iff] at hl
    obtain ⟨l0, e0, rfl⟩ := hl
    have := h.inf l0 e0
    have := shrink_length l0 o (by omega)
    unfold shrink at this
    simp only []
    omega

theorem delete_inv (c : Cfg) (ok : Bool) (s : T ι) (h : Inv c s) (ht : ok = true → s.fstr = []) :
    ∃ r, delete c ok s = some r ∧ (r.closed = none → Inv c r.s) := by
  obtain ⟨h, hg⟩ := h
  unfold delete
  by_cases h1 : s.index < 0 ∨ s.index ≥ s.count
  · rw [if_pos h1]; exact ⟨_, rfl, fun _ => ⟨h, hg⟩⟩
  rw [if_neg h1]
  obtain ⟨o, eo, ho⟩ := original_of c s h s.index (by omega) (by omega)
  rw [eo]
  have hx : ∃ ext, external s o = some ext := by
    unfold external
    cases e : s.infos with
    | none => exact ⟨_, rfl⟩
    | some l =>
      have := h.inf l e
      exact ⟨_, List.getElem?_eq_getElem (show o < l.length by omega)⟩
  obtain ⟨ext, ex⟩ := hx
  simp only [Option.bind_some]
  rw [ex]
  simp only [Option.bind_some]
  by_cases hok : ¬ ok = true
  · rw [if_pos hok]; exact ⟨_, rfl, fun _ => ⟨h, hg⟩⟩
  rw [if_neg hok]
  have hf := ht (by simpa using hok)
  by_cases h2 : (erase s o).orig = 0
  · rw [if_pos h2]; exact ⟨_, rfl, fun hh => by cases hh⟩
  rw [if_neg h2]
  have hc := erase_core c s h hf o ho h2
  refine ⟨_, rfl, fun _ => settle_inv c _ hc ?_ ?_ ?_⟩
  · have a : (erase s o).count = s.count - 1 := rfl
    have b : (erase s o).orig = s.orig - 1 := rfl
    have := (h.all hf).1
    have := h.orig
    have := h.pos
    omega
  · show 0 ≤ s.index; omega
  · show s.index ≤ s.count - 1; omega

theorem hittest_range (row rows total : Int) (h0 : 0 ≤ row) (h1 : row < rows) (ht : 0 < total) :
    0 ≤ hittest row rows total ∧ hittest row rows total < total := by
  unfold hittest
  by_cases h : rows ≤ 1 ∨ total ≤ 1
  · rw [if_pos h]; omega
  · rw [if_neg h]
    have hm : row * (total - 1) ≤ (rows - 1) * (total - 1) := Int.mul_le_mul_of_nonneg_right (by omega) (by omega)
    have hm0 : 0 ≤ row * (total - 1) := Int.mul_nonneg h0 (by omega)
    refine ⟨Int.ediv_nonneg hm0 (by omega), ?_⟩
    have : row * (total - 1) / (rows - 1) ≤ total - 1 := by
      apply Int.ediv_le_of_le_mul (by omega)
      rw [Int.mul_comm (total - 1)]
      exact hm
    omega

theorem bar_inv (c : Cfg) (row : Int) (s : T ι) (h : Inv c s) : Inv c (bar c row s) := by
  obtain ⟨h, hg⟩ := h
  have hv := h.vis
  unfold bar
  simp only []
  have hi : (s.count = 0 ∧ hittest (min (max row 0) (min s.count s.vis - 1)) (min s.count s.vis) s.count = 0) ∨
      (0 < s.count ∧ 0 ≤ hittest (min (max row 0) (min s.count s.vis - 1)) (min s.count s.vis) s.count ∧
        hittest (min (max row 0) (min s.count s.vis - 1)) (min s.count s.vis) s.count < s.count) := by
    have := h.count_nonneg
    by_cases h0 : s.count = 0
    · refine .inl ⟨h0, ?_⟩
      unfold hittest
      exact if_pos (.inl (by omega))
    · exact .inr ⟨by omega, hittest_range _ _ _ (by omega) (by omega) (by omega)⟩
  generalize hittest (min (max row 0) (min s.count s.vis - 1)) (min s.count s.vis) s.count = i at *
  obtain ⟨g, e, _⟩ := setTop_eq { s with index := i }
    (min (max (i - (min s.count s.vis - 1) / 2) 0) (s.count - min s.count s.vis)) false
  rw [e]
  refine navigated_inv c _ (h.sel i _ g) ?_
  unfold Pre
  simp only []
  omega

theorem dragOut_inv (c : Cfg) (row : Int) (speed : Nat) (s : T ι) (h : Inv c s) : Inv c (dragOut c row speed s) := by
  obtain ⟨h, hg⟩ := h
  have hv := h.vis
  unfold dragOut
  simp only []
  by_cases h1 : row < 0
  · rw [if_pos h1]
    by_cases h2 : s.top > 0
    · rw [if_pos h2]
      obtain ⟨g, e, _⟩ := setTop_eq s (max 0 (s.top - speed)) true
      rw [e]
      refine navigated_inv c _ (h.sel _ _ g) ?_
      unfold Good at hg; unfold Pre; simp only []; omega
    · rw [if_neg h2]; exact ⟨h, hg⟩
  · rw [if_neg h1]
    by_cases h2 : s.top + min s.count s.vis < s.count
    · rw [if_pos h2]
      obtain ⟨g, e, _⟩ := setTop_eq s (min (s.count - min s.count s.vis) (s.top + speed)) true
      rw [e]
      refine navigated_inv c _ (h.sel _ _ g) ?_
      unfold Good at hg; unfold Pre; simp only []; omega
    · rw [if_neg h2]; exact ⟨h, hg⟩

theorem pgdn_inv (c : Cfg) (s : T ι) (h : Inv c s) : Inv c (pgdn c s) := by
  obtain ⟨h, hg⟩ := h
  have hv := h.vis
  unfold pgdn
  simp only []
  by_cases h1 : s.index < s.count - 1
  · rw [if_pos h1]
    generalize hn : min (s.count - 1) (if s.index = s.top + (min s.count s.vis - scrollOfs c s) - 1 then s.index + (min s.count s.vis - scrollOfs c s)
      else s.top + (min s.count s.vis - scrollOfs c s) - 1) = n
    have hn' : n ≤ s.count - 1 := by omega
    rw [if_neg (by omega)]
    refine navigated_inv c _ (h.sel _ _ s.ignore) ?_
    unfold Good at hg; unfold Pre; simp only []; omega
  · rw [if_neg h1]; exact ⟨h, hg⟩

theorem pgup_inv (c : Cfg) (s : T ι) (h : Inv c s) (hb : ¬ (0 < s.index ∧ 2 * s.count ≤ s.index + scrollOfs c s)) :
    Inv c (pgup c s) := by
  obtain ⟨h, hg⟩ := h
  have hv := h.vis
  have ho := scrollOfs_le c s hv
  unfold pgup
  simp only []
  generalize scrollOfs c s = o at *
  by_cases h1 : s.index > 0
  · rw [if_pos h1]
    refine navigated_inv c _ (h.sel _ _ s.ignore) ?_
    unfold Good at hg
    unfold Pre
    simp only []
    by_cases h2 : s.index ≤ s.top + o
    · rw [if_pos h2]; omega
    · rw [if_neg h2]; omega
  · rw [if_neg h1]; exact ⟨h, hg⟩

theorem use_ok (c : Cfg) (s : T ι) (h : Core c s) :
    ∃ r, use s = some r ∧ r.closed ≠ none ∧
      (0 ≤ s.index → s.index < s.count → ∃ o x, r.closed = some (some (o, x)) ∧ s.items[o]? = some x ∧ itemAt s s.index = some x) := by
  unfold use
  by_cases h1 : 0 ≤ s.index ∧ s.index < s.count
  · rw [if_pos h1]
    obtain ⟨o, eo, ho⟩ := original_of c s h s.index h1.1 h1.2
    rw [eo]
    simp only [Option.bind_some]
    rw [List.getElem?_eq_getElem ho]
    refine ⟨_, rfl, by simp, fun _ _ => ⟨o, s.items[o], rfl, List.getElem?_eq_getElem ho, ?_⟩⟩
    rw [itemAt, eo]
    exact List.getElem?_eq_getElem ho
  · rw [if_neg h1]
    exact ⟨_, rfl, by simp, fun a b => absurd ⟨a, b⟩ h1⟩

/-! What scrolling does not change -/

/-- The lists are the same. -/
def Same (s s' : T ι) : Prop :=
  s'.items = s.items ∧ s'.infos = s.infos ∧ s'.fstr = s.fstr ∧ s'.filtered = s.filtered ∧ s'.count = s.count ∧ s'.vis = s.vis ∧
    s'.orig = s.orig ∧ s'.needle = s.needle

theorem Same.trans {a b d : T ι} (h1 : Same a b) (h2 : Same b d) : Same a d :=
  ⟨h2.1.trans h1.1, h2.2.1.trans h1.2.1, h2.2.2.1.trans h1.2.2.1, h2.2.2.2.1.trans h1.2.2.2.1, h2.2.2.2.2.1.trans h1.2.2.2.2.1,
    h2.2.2.2.2.2.1.trans h1.2.2.2.2.2.1, h2.2.2.2.2.2.2.1.trans h1.2.2.2.2.2.2.1, h2.2.2.2.2.2.2.2.trans h1.2.2.2.2.2.2.2⟩

theorem same_sel (s : T ι) (i t : Int) (g : Bool) : Same s { s with index := i, top := t, ignore := g } :=
  ⟨rfl, rfl, rfl, rfl, rfl, rfl, rfl, rfl⟩

theorem setTop_same (s : T ι) (t : Int) (g : Bool) : Same s (setTop s t g) ∧ (setTop s t g).index = s.index := by
  unfold setTop
  split <;> exact ⟨⟨rfl, rfl, rfl, rfl, rfl, rfl, rfl, rfl⟩, rfl⟩

theorem same_refl (s : T ι) : Same s s ∧ s.index = s.index := ⟨⟨rfl, rfl, rfl, rfl, rfl, rfl, rfl, rfl⟩, rfl⟩

theorem reveal_same (s : T ι) : Same s (reveal s) ∧ (reveal s).index = s.index := by
  unfold reveal
  simp only []
  split
  · exact setTop_same ..
  · split
    · exact setTop_same ..
    · exact same_refl s

theorem updateTop_same (c : Cfg) (s : T ι) : Same s (updateTop c s) ∧ (updateTop c s).index = s.index := by
  have h := reveal_same s
  unfold updateTop
  simp only []
  generalize reveal s = s1 at *
  have key : ∀ t, Same s (setTop s1 t false) ∧ (setTop s1 t false).index = s.index := fun t =>
    ⟨h.1.trans (setTop_same s1 t false).1, (setTop_same s1 t false).2.trans h.2⟩
  split
  · exact h
  · split
    · split
      · exact key _
      · split
        · exact key _
        · exact h
    · exact h

theorem display_same (c : Cfg) (s : T ι) : Same s (display c s) ∧ (display c s).index = s.index := by
  unfold display
  simp only []
  split
  · exact updateTop_same c s
  · exact same_refl s

theorem navigated_same (c : Cfg) (s : T ι) : Same s (navigated c s) ∧ (navigated c s).index = max 0 s.index := by
  have := display_same c { s with index := max 0 s.index }
  exact ⟨(same_sel s _ s.top s.ignore).trans this.1, this.2⟩

theorem jump_same (s : T ι) (i : Int) : Same s (jump s i) ∧ (jump s i).index = i := by
  obtain ⟨t, e, _⟩ := jump_eq s i
  rw [e]
  exact ⟨same_sel s i t s.ignore, rfl⟩

theorem settle_same (c : Cfg) (s : T ι) : Same s (settle c s) := by
  unfold settle
  simp only []
  refine Same.trans ?_ (display_same c _).1
  refine Same.trans ?_ (setTop_same _ _ false).1
  exact same_sel s _ s.top false

/-- Searching in the whole list. -/
theorem doFind_first (hit start : List Nat → ι → Bool) (c : Cfg) (intr : Bool) (dir : Int) (hd : dir = 1 ∨ dir = -1)
    (fb adv : Bool) (s : T ι) (h : Core c s) (hp : Pre s) (hf : s.filter = false) (hw : c.win = false) (hn : s.notFound = false)
    (st : Int) (hst : st = ((if fb then (if c.reverse then s.count - 1 else 0) else s.index) +
      (if adv then (if c.reverse then -dir else dir) else 0)) % s.count) :
    ∃ r, doFind hit start c intr dir fb adv s = some r ∧
      ((∃ j, r = (true, jump s j) ∧ First (fun i => ((itemAt s i).map (hit s.needle)).getD false) s.count st (if c.reverse then -dir else dir) j) ∨
       (r = (false, { s with notFound := true }) ∧ ∀ i, 0 ≤ i → i < s.count → ((itemAt s i).map (hit s.needle)).getD false = false)) := by
  have hfs : s.fstr = [] := by
    by_cases e : s.fstr = []
    · exact e
    · have := (h.some e).2.1
      rw [hf] at this
      cases this
  have hc := (h.all hfs).1
  have ho := h.orig
  have hpos := h.pos
  unfold doFind
  rw [hn, if_neg (by simp), hf, if_neg (by simp)]
  simp only [hw]
  have hd0 : (if c.reverse = true then 0 - dir else dir) = (if c.reverse = true then -dir else dir) := by split <;> omega
  rw [hd0]
  have hdir : (if c.reverse = true then -dir else dir) = 1 ∨ (if c.reverse = true then -dir else dir) = -1 := by split <;> omega
  generalize (if c.reverse = true then -dir else dir) = d at *
  have hi0 : ∃ i, i = (if fb = true then (if c.reverse = true then s.count - 1 else 0) else s.index) ∧ 0 ≤ i ∧ i < s.count := by
    refine ⟨_, rfl, ?_⟩
    unfold Pre at hp
    split
    · split <;> omega
    · omega
  obtain ⟨i, e, i0, i1⟩ := hi0
  rw [← e] at hst ⊢
  have hst2 : (if adv = true then advance i d s.count else i) = st := by
    rw [hst]
    split
    · exact advance_mod s.count i d hdir i0 i1
    · rw [Int.add_zero, Int.emod_eq_of_lt i0 i1]
  have s0 : 0 ≤ st := by rw [hst]; exact Int.emod_nonneg _ (by omega)
  have s1 : st < s.count := by rw [hst]; exact Int.emod_lt_of_pos _ (by omega)
  rw [hst2]
  obtain ⟨r, er, hr⟩ := findLoop_eq (fun i => (itemAt s i).map (hit s.needle))
    (fun i => ((itemAt s i).map (hit s.needle)).getD false) s.count st d hdir s0 s1
    (by
      intro i a b
      obtain ⟨x, ex⟩ := itemAt_of c s h i a b
      simp only [ex, Option.map_some, Option.getD_some])
    s.count.toNat 0 (by simp only [Int.natCast_zero]; omega) (by omega) (by intro j hj; omega)
  have e0 : (st + d * ((0 : Nat) : Int)) % s.count = st := by
    simp only [Int.natCast_zero, Int.mul_zero, Int.add_zero]
    exact Int.emod_eq_of_lt s0 s1
  rw [e0] at er
  simp only [Bool.false_eq_true, if_false]
  rw [er]
  cases r with
  | some j => exact ⟨_, rfl, .inl ⟨j, rfl, hr⟩⟩
  | none => exact ⟨_, rfl, .inr ⟨by simp, hr⟩⟩

end Clink.TextList
