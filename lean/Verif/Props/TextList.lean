import Verif.Proof.TextList

/-! C71: in a popup list there is always a selected item and it is visible; searching, filtering, choosing and deleting work on
the right items. -/

namespace Clink.TextList

open Spec (Good Margin First margin shown target)

variable {ι : Type}

/-- The filter, if there is one. -/
def filterOf (s : T ι) : Option (List Nat) := if s.fstr = [] then none else some s.filtered

/-- Where the code fails: PgUp in a list that is shorter than the margin, deleting in a
filtered list, and the mouse wheel when the filter has left nothing. -/
def Trouble (c : Cfg) (s : T ι) : Ev → Prop
  | .pgup => 0 < s.index ∧ 2 * s.count ≤ s.index + margin c.ofs s.vis
  | .del ok => ok = true ∧ s.fstr ≠ []
  | .wheelDown n => s.count = 0 ∧ 0 < n
  | _ => False

/-- The states of a list while it is open. -/
inductive Reach (hit start : List Nat → ι → Bool) (c : Cfg) : T ι → Prop
  | init (items : List ι) (infos : Option (List Nat)) (filter : Bool) (vis index : Int) (s : T ι) :
      (∀ l, infos = some l → l.length = items.length) → activate c items infos filter vis index = some s → Reach hit start c s
  | step (s : T ι) (intr : Bool) (e : Ev) (r : R ι) :
      Reach hit start c s → ¬ Trouble c s e → step hit start c intr e s = some r → r.closed = none → Reach hit start c r.s

theorem margin_eq (c : Cfg) (s : T ι) (hv : 0 < s.vis) : scrollOfs c s = margin c.ofs s.vis := by
  unfold scrollOfs margin
  split <;> omega

theorem activate_inv (c : Cfg) (items : List ι) (infos : Option (List Nat)) (filter : Bool) (vis index : Int) (s : T ι)
    (hi : ∀ l, infos = some l → l.length = items.length) (h : activate c items infos filter vis index = some s) : Inv c s := by
  unfold activate at h
  by_cases h1 : items = []
  · rw [if_pos h1] at h; cases h
  rw [if_neg h1] at h
  by_cases h2 : vis ≤ 0
  · rw [if_pos h2] at h; cases h
  rw [if_neg h2] at h
  injection h with h
  rw [← h]
  have hl : 0 < items.length := List.length_pos_iff.mpr h1
  refine display_inv c _ ⟨by simp only []; omega, rfl, hl, fun _ => ⟨rfl, rfl⟩, fun hh => absurd rfl hh, fun _ hh => absurd hh (by simp),
    List.Pairwise.nil, fun hh => absurd rfl hh, hi⟩ ?_
  unfold Pre
  simp only []
  by_cases h3 : index < 0 ∨ index ≥ (items.length : Int)
  · rw [if_pos h3, if_pos h3]; omega
  · rw [if_neg h3, if_neg h3]; omega

theorem step_inv (hit start : List Nat → ι → Bool) (c : Cfg) (intr : Bool) (e : Ev) (s : T ι) (h : Inv c s) (ht : ¬ Trouble c s e) :
    ∃ r, step hit start c intr e s = some r ∧ (r.closed = none → Inv c r.s) := by
  have hv := h.1.vis
  have hcn := h.1.count_nonneg
  have h' : Inv c { s with ignore := false } := ⟨h.1.sel s.index s.top false, h.2⟩
  have hc := h'.1
  unfold step
  rw [if_neg (by omega)]
  have hg := h.2
  unfold Good at hg
  cases e with
  | up =>
    refine ⟨_, rfl, fun _ => navigated_inv c _ (h.1.sel _ s.top false) ?_⟩
    unfold Pre; simp only []
    by_cases h1 : s.index - 1 < 0
    · rw [if_pos h1]; split <;> omega
    · rw [if_neg h1]; omega
  | down =>
    refine ⟨_, rfl, fun _ => navigated_inv c _ (h.1.sel _ s.top false) ?_⟩
    unfold Pre; simp only []
    by_cases h1 : s.index + 1 ≥ s.count
    · rw [if_pos h1]; split <;> omega
    · rw [if_neg h1]; omega
  | home => exact ⟨_, rfl, fun _ => navigated_inv c _ (h.1.sel _ s.top false) (by unfold Pre; simp only []; omega)⟩
  | fin => exact ⟨_, rfl, fun _ => navigated_inv c _ (h.1.sel _ s.top false) (by unfold Pre; simp only []; omega)⟩
  | pgup =>
    refine ⟨_, rfl, fun _ => pgup_inv c _ h' ?_⟩
    intro hb
    apply ht
    rw [show scrollOfs c { s with ignore := false } = margin c.ofs s.vis from margin_eq c s hv] at hb
    exact hb
  | pgdn => exact ⟨_, rfl, fun _ => pgdn_inv c _ h'⟩
  | click row inside dbl =>
    simp only []
    split
    · exact ⟨_, rfl, fun hh => by cases hh⟩
    · split
      · exact ⟨_, rfl, fun _ => h'⟩
      · split
        · rename_i hr
          have hp : Pre { s with index := row + s.top, ignore := true } := by unfold Pre; simp only []; omega
          have hp' : Pre { s with index := max 0 (row + s.top), ignore := true } := by unfold Pre; simp only []; omega
          split
          · obtain ⟨r, e, hr, _⟩ := use_ok c (display c { s with index := row + s.top, ignore := true })
              (display_inv c _ (h.1.sel _ s.top true) hp).1
            exact ⟨r, e, fun hh => absurd hh hr⟩
          · exact ⟨_, rfl, fun _ => navigated_inv c _ (h.1.sel _ s.top true) hp'⟩
        · exact ⟨_, rfl, fun _ => h'⟩
  | drag row can speed =>
    simp only []
    split
    · exact ⟨_, rfl, fun _ => navigated_inv c _ (h.1.sel _ s.top true) (by unfold Pre; simp only []; omega)⟩
    · split
      · exact ⟨_, rfl, fun _ => dragOut_inv c row speed _ h'⟩
      · exact ⟨_, rfl, fun _ => h'⟩
  | bar row => exact ⟨_, rfl, fun _ => bar_inv c row _ h'⟩
  | wheelUp n =>
    refine ⟨_, rfl, fun _ => navigated_inv c _ (h.1.sel _ s.top false) ?_⟩
    unfold Pre u32; simp only []
    rw [if_neg (by omega)]
    omega
  | wheelDown n =>
    refine ⟨_, rfl, fun _ => navigated_inv c _ (h.1.sel _ s.top false) ?_⟩
    have ht : ¬ (s.count = 0 ∧ 0 < n) := ht
    unfold Pre u32; simp only []
    split <;> omega
  | find prev =>
    simp only []
    split
    · exact ⟨_, rfl, fun _ => h'⟩
    · obtain ⟨r, e, a, b, d⟩ := doFind_inv hit start c intr (if prev = true then -1 else 1) (by split <;> omega) false true _ hc (Good.pre h'.2) (fun _ => h'.2)
      rw [e]
      exact ⟨_, rfl, fun _ => found_inv c false r a b (fun _ => d h'.2)⟩
  | copy =>
    simp only []
    have hlt : s.index.toNat < s.items.length := by
      have h2 := h.1.pos
      by_cases hf : s.fstr = []
      · have := (h.1.all hf).1
        have := h.1.orig
        omega
      · have h3 := (h.1.some hf).1
        by_cases h0 : s.filtered.length = 0
        · omega
        · -- a strictly increasing list of numbers below `n` has at most `n` members
          have hlen : s.filtered.length ≤ s.items.length := by
            have : ∀ (l : List Nat) (m n : Nat), l.Pairwise (· < ·) → (∀ i ∈ l, m ≤ i ∧ i < n) → l.length ≤ n - m := by
              intro l
              induction l with
              | nil => intro m n _ _; simp
              | cons x l ih =>
                intro m n hp hb
                have hx := hb x (by simp)
                have hp := List.pairwise_cons.mp hp
                have := ih (x + 1) n hp.2 (fun i hi => ⟨hp.1 i hi, (hb i (by simp [hi])).2⟩)
                simp only [List.length_cons]
                omega
            have := this s.filtered 0 s.items.length h.1.sorted (fun i hi => ⟨Nat.zero_le _, h.1.inb i hi⟩)
            omega
          omega
    rw [if_neg (by omega), List.getElem?_eq_getElem hlt]
    exact ⟨_, rfl, fun _ => h'⟩
  | del ok =>
    refine delete_inv c ok _ h' ?_
    intro hok
    by_cases hf : s.fstr = []
    · exact hf
    · exact absurd ⟨hok, hf⟩ ht
  | enter =>
    simp only []
    split
    · exact ⟨_, rfl, fun _ => h'⟩
    · obtain ⟨r, e, hr, _⟩ := use_ok c _ hc
      exact ⟨r, e, fun hh => absurd hh hr⟩
  | cancel => exact ⟨_, rfl, fun hh => by cases hh⟩
  | toggle =>
    simp only []
    split
    · exact ⟨_, rfl, fun _ => h'⟩
    · generalize hs1 : (if s.filter = true then clearFilter { s with ignore := false } else { s with ignore := false }) = s1
      have h1 : Core c s1 ∧ s1.fstr = [] ∧ Pre s1 ∧ (s.filter = false → Good s1.count s1.index s1.top s1.vis) ∧ (s.filter = true → s1.filter = true) ∧ (s.filter = false → s1.filter = false) := by
        rw [← hs1]
        by_cases hf : s.filter = true
        · rw [if_pos hf]
          obtain ⟨a, b⟩ := clearFilter_core c _ hc
          refine ⟨a, b, clearFilter_pre c _ hc h.2, fun hh => (by rw [hf] at hh; cases hh), fun _ => ?_, fun hh => (by rw [hf] at hh; cases hh)⟩
          unfold clearFilter
          split
          · unfold setTop
            split <;> exact hf
          · exact hf
        · rw [if_neg hf]
          refine ⟨hc, ?_, Good.pre h'.2, fun _ => h'.2, fun hh => absurd hh hf, fun hh => hh⟩
          show s.fstr = []
          by_cases e : s.fstr = []
          · exact e
          · exact absurd (h.1.some e).2.1 hf
      obtain ⟨a, b, d, e, f1, f2⟩ := h1
      obtain ⟨s', es, hs⟩ := search_inv hit start c intr false { s1 with filter := ! s1.filter }
        ⟨a.1, a.2, a.3, a.4, fun hh => absurd b hh, a.6, a.7, a.8, a.9⟩ d (by
          intro hh
          refine e ?_
          cases hf : s.filter
          · rfl
          · have := f1 hf
            simp [this] at hh)
      rw [es]
      exact ⟨_, rfl, fun _ => hs⟩
  | needle n back clear =>
    simp only []
    obtain ⟨s', e, hs⟩ := search_inv hit start c intr (back && ! c.win)
      { s with ignore := false, needle := n, notFound := if back = true ∨ clear = true then false else s.notFound }
      ⟨hc.1, hc.2, hc.3, hc.4, hc.5, hc.6, hc.7, hc.8, hc.9⟩ (Good.pre h'.2) (fun _ => h'.2)
    rw [e]
    exact ⟨_, rfl, fun _ => hs⟩
  | number i =>
    simp only []
    split
    · rename_i hi
      exact ⟨_, rfl, fun _ => jump_inv c _ hc h.2 i hi.1 hi.2⟩
    · exact ⟨_, rfl, fun _ => display_inv c _ hc (Good.pre h'.2)⟩

theorem reach_inv (hit start : List Nat → ι → Bool) (c : Cfg) (s : T ι) (h : Reach hit start c s) : Inv c s := by
  induction h with
  | init items infos filter vis index s hi h => exact activate_inv c items infos filter vis index s hi h
  | step s intr e r _ ht hs hcl ih =>
    obtain ⟨r', e', hr⟩ := step_inv hit start c intr e s ih ht
    rw [hs] at e'
    injection e' with e'
    rw [e'] at hcl ⊢
    exact hr hcl

/-! The property -/

/-- While the list is open the selected item exists and is visible. -/
theorem C71_visible (hit start : List Nat → ι → Bool) (c : Cfg) (s : T ι) (h : Reach hit start c s) :
    Good s.count s.index s.top s.vis := (reach_inv hit start c s h).2

/-- No input makes it read outside of its arrays. -/
theorem C71_reads (hit start : List Nat → ι → Bool) (c : Cfg) (s : T ι) (h : Reach hit start c s) (intr : Bool) (e : Ev)
    (ht : ¬ Trouble c s e) : step hit start c intr e s ≠ none := by
  obtain ⟨r, e', _⟩ := step_inv hit start c intr e s (reach_inv hit start c s h) ht
  rw [e']
  simp

/-- Keys and the mouse wheel select the item that they should, and it gets the margin that the user has set. -/
theorem C71_moves (hit start : List Nat → ι → Bool) (c : Cfg) (s : T ι) (h : Reach hit start c s) (intr : Bool) (e : Ev) (i : Int)
    (hc : 0 < s.count) (ht : target c.wrap s.count s.index e = some i) :
    ∃ r, step hit start c intr e s = some r ∧ r.closed = none ∧ r.s.index = i ∧ r.s.count = s.count ∧
      Margin s.count i r.s.top s.vis (margin c.ofs s.vis) := by
  have hi := reach_inv hit start c s h
  have hv := hi.1.vis
  have hg := hi.2
  unfold Good at hg
  have key : ∀ j : Int, 0 ≤ j → j < s.count → ∀ k, max 0 k = j →
      (navigated c { s with ignore := false, index := k }).index = j ∧ (navigated c { s with ignore := false, index := k }).count = s.count ∧
      Margin s.count j (navigated c { s with ignore := false, index := k }).top s.vis (margin c.ofs s.vis) := by
    intro j j0 j1 k hk
    unfold navigated
    simp only []
    rw [hk]
    obtain ⟨t, g, e, _, hm⟩ := display_eq c { s with ignore := false, index := j } (hi.1.sel j s.top false)
      (by unfold Pre; simp only []; omega)
    rw [e]
    refine ⟨rfl, rfl, ?_⟩
    have := hm rfl
    rw [show scrollOfs c { s with ignore := false, index := j } = margin c.ofs s.vis from margin_eq c s hv] at this
    exact this
  unfold step
  rw [if_neg (by omega)]
  cases e <;> simp only [target, Option.some.injEq, reduceCtorEq] at ht
  · refine ⟨_, rfl, rfl, ?_⟩
    refine key i ?_ ?_ _ ?_
    · rw [← ht]; split <;> (try split) <;> omega
    · rw [← ht]; split <;> (try split) <;> omega
    · show max 0 (if s.index - 1 < 0 then (if c.wrap = true then s.count - 1 else 0) else s.index - 1) = i
      rw [← ht]; by_cases h0 : s.index = 0
      · rw [if_pos h0, if_pos (by omega)]; split <;> omega
      · rw [if_neg h0, if_neg (by omega)]; omega
  · refine ⟨_, rfl, rfl, ?_⟩
    refine key i ?_ ?_ _ ?_
    · rw [← ht]; split <;> (try split) <;> omega
    · rw [← ht]; split <;> (try split) <;> omega
    · show max 0 (if s.index + 1 ≥ s.count then (if c.wrap = true then 0 else s.count - 1) else s.index + 1) = i
      rw [← ht]; by_cases h0 : s.index = s.count - 1
      · rw [if_pos h0, if_pos (by omega)]; split <;> omega
      · rw [if_neg h0, if_neg (by omega)]; omega
  · exact ⟨_, rfl, rfl, key i (by omega) (by omega) _ (by omega)⟩
  · exact ⟨_, rfl, rfl, key i (by omega) (by omega) _ (show max 0 (s.count - 1) = i by omega)⟩
  · rename_i n
    refine ⟨_, rfl, rfl, key i (by omega) (by omega) _ ?_⟩
    show max 0 (s.index - min (u32 s.index) n) = i
    unfold u32; rw [if_neg (by omega)]; omega
  · rename_i n
    refine ⟨_, rfl, rfl, key i (by omega) (by omega) _ ?_⟩
    show max 0 (s.index + min (u32 (s.count - 1 - s.index)) n) = i
    unfold u32; rw [if_neg (by omega)]; omega

/-- PgUp goes up. -/
theorem C71_pgup (hit start : List Nat → ι → Bool) (c : Cfg) (s : T ι) (h : Reach hit start c s) (intr : Bool)
    (h0 : 0 < s.index) (hm : margin c.ofs s.vis < s.count) :
    ∃ r, step hit start c intr .pgup s = some r ∧ r.closed = none ∧ 0 ≤ r.s.index ∧ r.s.index < s.index := by
  have hi := reach_inv hit start c s h
  have hv := hi.1.vis
  have hg := hi.2
  unfold Good at hg
  unfold step
  rw [if_neg (by omega)]
  refine ⟨_, rfl, rfl, ?_⟩
  have ho := scrollOfs_le c s hv
  have hme := margin_eq c s hv
  unfold pgup
  simp only []
  rw [if_pos h0, (navigated_same c _).2, show scrollOfs c { s with ignore := false } = scrollOfs c s from rfl]
  generalize scrollOfs c s = o at *
  simp only []
  by_cases h2 : s.index ≤ s.top + o
  · rw [if_pos h2]; omega
  · rw [if_neg h2]; omega

/-- PgDn goes down, unless the selected item is below the margin at the end of the list. -/
theorem C71_pgdn (hit start : List Nat → ι → Bool) (c : Cfg) (s : T ι) (h : Reach hit start c s) (intr : Bool)
    (h0 : s.index < s.count - 1) (hm : s.index + margin c.ofs s.vis < s.top + min s.count s.vis) :
    ∃ r, step hit start c intr .pgdn s = some r ∧ r.closed = none ∧ s.index < r.s.index ∧ r.s.index < s.count := by
  have hi := reach_inv hit start c s h
  have hv := hi.1.vis
  have hg := hi.2
  unfold Good at hg
  unfold step
  rw [if_neg (by omega)]
  refine ⟨_, rfl, rfl, ?_⟩
  have ho := scrollOfs_le c s hv
  have hme := margin_eq c s hv
  unfold pgdn
  simp only []
  rw [if_pos h0, (navigated_same c _).2, show scrollOfs c { s with ignore := false } = scrollOfs c s from rfl]
  generalize scrollOfs c s = o at *
  by_cases h2 : s.index = s.top + (min s.count s.vis - o) - 1
  · rw [if_pos h2, if_neg (by omega)]; simp only []; omega
  · rw [if_neg h2, if_neg (by omega)]; simp only []; omega

/-- Violation: below the margin PgDn goes up. -/
theorem C71_pgdn_violated (hit start : List Nat → ι → Bool) (c : Cfg) (s : T ι) (h : Reach hit start c s) (intr : Bool)
    (h0 : s.index < s.count - 1) (h1 : 0 < s.index) (hm : s.top + min s.count s.vis ≤ s.index + margin c.ofs s.vis) :
    ∃ r, step hit start c intr .pgdn s = some r ∧ r.closed = none ∧ r.s.index < s.index := by
  have hi := reach_inv hit start c s h
  have hv := hi.1.vis
  have hg := hi.2
  unfold Good at hg
  unfold step
  rw [if_neg (by omega)]
  refine ⟨_, rfl, rfl, ?_⟩
  have ho := scrollOfs_le c s hv
  have hme := margin_eq c s hv
  unfold pgdn
  simp only []
  rw [if_pos h0, (navigated_same c _).2, show scrollOfs c { s with ignore := false } = scrollOfs c s from rfl]
  generalize scrollOfs c s = o at *
  rw [if_neg (by omega), if_neg (by omega)]
  simp only []
  omega

/-- Violation: PgUp in a list that is shorter than the margin selects an item that does not exist. -/
theorem C71_pgup_violated (hit start : List Nat → ι → Bool) (c : Cfg) (s : T ι) (h : Reach hit start c s) (intr : Bool)
    (h0 : 0 < s.index) (hm : 2 * s.count ≤ s.index + margin c.ofs s.vis) :
    ∃ r, step hit start c intr .pgup s = some r ∧ r.closed = none ∧ s.count ≤ r.s.index := by
  have hi := reach_inv hit start c s h
  have hv := hi.1.vis
  have hg := hi.2
  unfold Good at hg
  unfold step
  rw [if_neg (by omega)]
  refine ⟨_, rfl, rfl, ?_⟩
  have ho := scrollOfs_le c s hv
  have hme := margin_eq c s hv
  unfold pgup
  simp only []
  rw [if_pos h0, (navigated_same c _).2, show scrollOfs c { s with ignore := false } = scrollOfs c s from rfl]
  generalize scrollOfs c s = o at *
  simp only []
  rw [if_pos (by omega)]
  omega

/-- A click selects the item in the row, and the list does not scroll. -/
theorem C71_click (hit start : List Nat → ι → Bool) (c : Cfg) (s : T ι) (h : Reach hit start c s) (intr : Bool) (row : Int)
    (h0 : 0 ≤ row) (h1 : row < s.vis) (h2 : s.top + row < s.count) :
    ∃ r, step hit start c intr (.click row true false) s = some r ∧ r.closed = none ∧ r.s.index = s.top + row ∧ r.s.top = s.top := by
  have hi := reach_inv hit start c s h
  have hv := hi.1.vis
  have hg := hi.2
  unfold Good at hg
  unfold step
  rw [if_neg (by omega)]
  simp only []
  rw [if_neg (by omega), if_neg (by simp), if_pos (by omega), if_neg (by simp)]
  refine ⟨_, rfl, rfl, ?_⟩
  simp only []
  have e1 : max 0 (row + s.top) = s.top + row := by omega
  have e : navigated c { s with index := row + s.top, ignore := true } = { s with index := s.top + row, ignore := true } := by
    unfold navigated
    simp only [e1]
    rw [display_updateTop c _ (hi.1.sel (s.top + row) s.top true)]
    have er : reveal { s with index := s.top + row, ignore := true } = { s with index := s.top + row, ignore := true } := by
      unfold reveal
      simp only []
      rw [if_neg (by omega), if_neg (by omega)]
    unfold updateTop
    rw [er]
    simp only [if_true]
  rw [e]
  exact ⟨rfl, rfl⟩

/-- `itemAt` is the item that is shown. -/
theorem itemAt_shown (s : T ι) (i : Int) (h : 0 ≤ i) : itemAt s i = shown s.items (filterOf s) i.toNat := by
  unfold itemAt original filterOf shown
  rw [if_neg (by omega)]
  by_cases hf : s.fstr = []
  · rw [if_pos hf, if_neg (by simpa using hf)]; rfl
  · rw [if_neg hf, if_pos hf]

/-- Enter gives the item that is shown as selected, and its place in the list that was passed to the popup list. -/
theorem C71_choice (hit start : List Nat → ι → Bool) (c : Cfg) (s : T ι) (h : Reach hit start c s) (intr : Bool) (hc : 0 < s.count) :
    ∃ r o x, step hit start c intr .enter s = some r ∧ r.closed = some (some (o, x)) ∧ s.items[o]? = some x ∧
      shown s.items (filterOf s) s.index.toNat = some x := by
  have hi := reach_inv hit start c s h
  have hv := hi.1.vis
  have hg := hi.2
  unfold Good at hg
  unfold step
  rw [if_neg (by omega)]
  simp only []
  rw [if_neg (by omega)]
  obtain ⟨r, e, _, hr⟩ := use_ok c _ (hi.1.sel s.index s.top false)
  obtain ⟨o, x, a, b, d⟩ := hr (by simp only []; omega) (by simp only []; omega)
  refine ⟨r, o, x, e, a, b, ?_⟩
  rw [← itemAt_shown s s.index (by omega)]
  exact d

/-- Ctrl-C copies the selected item, without a filter. -/
theorem C71_copy (hit start : List Nat → ι → Bool) (c : Cfg) (s : T ι) (h : Reach hit start c s) (intr : Bool) (hf : s.fstr = []) :
    ∃ r x, step hit start c intr .copy s = some r ∧ r.copied = some x ∧ shown s.items (filterOf s) s.index.toNat = some x := by
  have hi := reach_inv hit start c s h
  have hv := hi.1.vis
  have hg := hi.2
  unfold Good at hg
  have h1 := (hi.1.all hf).1
  have h2 := hi.1.orig
  have h3 := hi.1.pos
  unfold step
  rw [if_neg (by omega)]
  simp only []
  have hl : s.index.toNat < s.items.length := by omega
  rw [if_neg (by omega), List.getElem?_eq_getElem hl]
  refine ⟨_, _, rfl, rfl, ?_⟩
  unfold filterOf shown
  rw [if_pos hf]
  exact List.getElem?_eq_getElem hl

theorem First.congr {p q : Int → Bool} {n st d i : Int} (h : First p n st d i) (hpq : ∀ i, 0 ≤ i → i < n → p i = q i) : First q n st d i := by
  have hr := First.range h
  obtain ⟨k, hk, e, hp, hj⟩ := h
  refine ⟨k, hk, e, ?_, fun j h => ?_⟩
  · rw [← hpq i hr.1 hr.2]; exact hp
  · rw [← hpq _ (Int.emod_nonneg _ (by omega)) (Int.emod_lt_of_pos _ (by omega))]; exact hj j h

/-- What a search does to a state. -/
def Searched (hit : List Nat → ι → Bool) (s s' : T ι) (st d : Int) : Prop :=
  First (fun i => ((shown s.items none i.toNat).map (hit s.needle)).getD false) s.count st d s'.index ∨
    (s'.index = s.index ∧ s'.notFound = true ∧ ∀ x ∈ s.items, hit s.needle x = false)

theorem searched (hit start : List Nat → ι → Bool) (c : Cfg) (intr : Bool) (dir : Int) (hd : dir = 1 ∨ dir = -1)
    (fb adv need : Bool) (s : T ι) (h : Core c s) (hp : Pre s) (hf : s.filter = false) (hw : c.win = false) (hn : s.notFound = false)
    (st : Int) (hst : st = ((if fb then (if c.reverse then s.count - 1 else 0) else s.index) +
      (if adv then (if c.reverse then -dir else dir) else 0)) % s.count) :
    ∃ r, doFind hit start c intr dir fb adv s = some r ∧ Searched hit s (found c need r) st (if c.reverse then -dir else dir) := by
  have hfs : s.fstr = [] := by
    by_cases e : s.fstr = []
    · exact e
    · have := (h.some e).2.1
      rw [hf] at this
      cases this
  have hfo : filterOf s = none := by unfold filterOf; rw [if_pos hfs]
  obtain ⟨r, e, hr'⟩ := doFind_first hit start c intr dir hd fb adv s h hp hf hw hn st hst
  refine ⟨r, e, ?_⟩
  rcases hr' with ⟨j, rfl, hj⟩ | ⟨rfl, hj⟩
  · left
    have e1 : (found c need (true, jump s j)).index = j := by
      unfold found
      rw [if_pos (.inl rfl), (display_same c _).2]
      exact (jump_same s j).2
    rw [e1]
    refine First.congr hj ?_
    intro i h0 _
    simp only [itemAt_shown s i h0, hfo]
  · right
    have e1 : (found c need (false, { s with notFound := true })).index = s.index ∧ (found c need (false, { s with notFound := true })).notFound = true := by
      unfold found
      split
      · obtain ⟨t, g, e, _⟩ := display_eq c { s with notFound := true } ⟨h.1, h.2, h.3, h.4, h.5, h.6, h.7, h.8, h.9⟩ hp
        rw [e]
        exact ⟨rfl, rfl⟩
      · exact ⟨rfl, rfl⟩
    refine ⟨e1.1, e1.2, ?_⟩
    intro x hx
    obtain ⟨i, hi, ei⟩ := List.getElem_of_mem hx
    have h1 := (h.all hfs).1
    have h2 := h.orig
    have := hj i (by omega) (by omega)
    rw [itemAt_shown s i (by omega), hfo] at this
    unfold shown at this
    simp only [Int.toNat_natCast, List.getElem?_eq_getElem hi, ei, Option.map_some, Option.getD_some] at this
    exact this

/-- F3 selects the next item that has the needle, Shift-F3 the previous one, going around; or else there is none.  A reversed
list is searched upwards. -/
theorem C71_find (hit start : List Nat → ι → Bool) (c : Cfg) (s : T ι) (h : Reach hit start c s) (intr prev : Bool)
    (hf : s.filter = false) (hw : c.win = false) (hn : s.notFound = false) :
    ∃ r, step hit start c intr (.find prev) s = some r ∧ r.closed = none ∧
      Searched hit s r.s ((s.index + if prev = c.reverse then 1 else -1) % s.count) (if prev = c.reverse then 1 else -1) := by
  have hi := reach_inv hit start c s h
  have hv := hi.1.vis
  unfold step
  rw [if_neg (by omega)]
  simp only []
  rw [if_neg (by simp [hw])]
  obtain ⟨r, e, hs⟩ := searched hit start c intr (if prev = true then -1 else 1) (by split <;> omega) false true false
    { s with ignore := false } (hi.1.sel s.index s.top false) (Good.pre hi.2) hf hw hn _ rfl
  rw [e]
  have ed : (if c.reverse = true then -(if prev = true then (-1 : Int) else 1) else (if prev = true then -1 else 1)) =
      if prev = c.reverse then 1 else -1 := by
    cases prev <;> cases c.reverse <;> rfl
  simp only [ed, Bool.false_eq_true, if_false, if_true] at hs
  exact ⟨_, rfl, rfl, hs⟩

/-- Typing selects the first item from the selected one on that has the needle, Backspace the first item of the list. -/
theorem C71_type (hit start : List Nat → ι → Bool) (c : Cfg) (s : T ι) (h : Reach hit start c s) (intr : Bool) (n : List Nat)
    (back clear : Bool) (hf : s.filter = false) (hw : c.win = false) (hn : s.notFound = false ∨ back = true ∨ clear = true) :
    ∃ r, step hit start c intr (.needle n back clear) s = some r ∧ r.closed = none ∧
      Searched hit { s with needle := n } r.s (if back then (if c.reverse then s.count - 1 else 0) else s.index) (if c.reverse then -1 else 1) := by
  have hi := reach_inv hit start c s h
  have hc := hi.1
  have hv := hi.1.vis
  have hg := hi.2
  have hfs : s.fstr = [] := by
    by_cases e : s.fstr = []
    · exact e
    · have := (hc.some e).2.1
      rw [hf] at this
      cases this
  have h1 := (hc.all hfs).1
  have h2 := hc.orig
  have h3 := hc.pos
  have hnf : (if back = true ∨ clear = true then false else s.notFound) = false := by
    split
    · rfl
    · rename_i hh
      rcases hn with hn | hn
      · exact hn
      · exact absurd hn hh
  unfold step
  rw [if_neg (by omega)]
  simp only [hnf, hw, Bool.not_false, Bool.and_true]
  unfold search
  rw [if_pos (by simp [hw])]
  simp only [Bool.false_eq_true, if_false]
  obtain ⟨r, e, hs⟩ := searched hit start c intr 1 (.inl rfl) back false true
    { s with ignore := false, needle := n, notFound := false } ⟨hc.1, hc.2, hc.3, hc.4, hc.5, hc.6, hc.7, hc.8, hc.9⟩ (Good.pre hg) hf hw rfl
    (if back then (if c.reverse then s.count - 1 else 0) else s.index) (by
      have hg : Good s.count s.index s.top s.vis := hg
      unfold Good at hg
      simp only [Bool.false_eq_true, if_false, Int.add_zero]
      rw [Int.emod_eq_of_lt] <;> split <;> (try split) <;> omega)
  rw [e]
  exact ⟨_, rfl, rfl, hs⟩

/-! Filtering -/

/-- The numbers of the items that have the needle. -/
def having (hit : List Nat → ι → Bool) (items : List ι) (n : List Nat) : List Nat :=
  (List.range items.length).filter fun i => match items[i]? with | some x => hit n x | none => false

/-- The list is filtered by the filter. -/
def Exact (hit : List Nat → ι → Bool) (s : T ι) : Prop := s.fstr ≠ [] → s.filtered = having hit s.items s.fstr

theorem Exact.same {hit : List Nat → ι → Bool} {s s' : T ι} (h : Exact hit s) (hs : Same s s') : Exact hit s' := by
  unfold Exact
  rw [hs.2.2.1, hs.2.2.2.1, hs.1]
  exact h

theorem newFiltered_exact (hit : List Nat → ι → Bool) (hm : ∀ a b x, a <+: b → hit b x = true → hit a x = true) (s : T ι) (h : Exact hit s) :
    newFiltered hit s = having hit s.items s.needle := by
  unfold newFiltered
  simp only []
  by_cases hp : s.fstr ≠ [] ∧ s.fstr <+: s.needle
  · rw [if_pos hp, h hp.1]
    unfold having
    rw [List.filter_filter]
    apply List.filter_congr
    intro i _
    cases s.items[i]? with
    | none => rfl
    | some x =>
      simp only []
      cases e : hit s.needle x with
      | false => rfl
      | true => simp [hm _ _ x hp.2 e]
  · rw [if_neg hp]; rfl

theorem clearFilter_exact (hit : List Nat → ι → Bool) (c : Cfg) (s : T ι) (h : Core c s) : Exact hit (clearFilter s) :=
  fun hh => absurd (clearFilter_core c s h).2 hh

theorem filterItems_exact (hit : List Nat → ι → Bool) (hm : ∀ a b x, a <+: b → hit b x = true → hit a x = true) (c : Cfg) (intr : Bool)
    (s : T ι) (hc : Core c s) (h : Exact hit s) :
    Exact hit (filterItems hit c intr s).2 ∧
      (intr = false → s.needle ≠ [] → (filterItems hit c intr s).2.fstr = s.needle ∧ (filterItems hit c intr s).2.items = s.items ∧
        (s.fstr ≠ s.needle → (filterItems hit c intr s).1 = true ∧
          (filterItems hit c intr s).2.index = if c.reverse then max 0 ((filterItems hit c intr s).2.count - 1) else 0)) := by
  unfold filterItems
  by_cases h1 : s.fstr = s.needle
  · rw [if_pos h1]; exact ⟨h, fun _ _ => ⟨h1, rfl, fun hh => absurd h1 hh⟩⟩
  rw [if_neg h1]
  by_cases h2 : s.needle = []
  · rw [if_pos h2]; exact ⟨clearFilter_exact hit c s hc, fun _ hh => absurd h2 hh⟩
  rw [if_neg h2]
  by_cases h3 : intr = true
  · rw [if_pos h3]; exact ⟨h, fun hh => by rw [h3] at hh; cases hh⟩
  rw [if_neg h3]
  simp only []
  rw [newFiltered_exact hit hm s h]
  generalize hs1 : (if s.fstr = [] then { s with savedIndex := s.index, savedTop := s.top } else s) = s1
  have e1 : s1.items = s.items := by rw [← hs1]; split <;> rfl
  generalize hs2 : ({ s1 with filtered := having hit s.items s.needle, count := ((having hit s.items s.needle).length : Int), fstr := s.needle, index := (if c.reverse = true then max 0 (((having hit s.items s.needle).length : Int) - 1) else 0) } : T ι) = s2
  have f1 := setTop_same s2 0 false
  have f2 := updateTop_same c (setTop s2 0 false)
  have f := f1.1.trans f2.1
  have ex : Exact hit s2 := by
    intro _
    rw [← hs2]
    show having hit s.items s.needle = having hit s1.items s.needle
    rw [e1]
  refine ⟨ex.same f, fun _ _ => ⟨?_, ?_, fun _ => ⟨trivial, ?_⟩⟩⟩
  · rw [f.2.2.1, ← hs2]
  · rw [f.1, ← hs2]; exact e1
  · rw [f2.2, f1.2, f.2.2.2.2.1, ← hs2]

theorem doFind_exact (hit start : List Nat → ι → Bool) (hm : ∀ a b x, a <+: b → hit b x = true → hit a x = true) (c : Cfg) (intr : Bool) (dir : Int)
    (fb adv : Bool) (s : T ι) (hc : Core c s) (h : Exact hit s) (r : Bool × T ι) (hr : doFind hit start c intr dir fb adv s = some r) :
    Exact hit r.2 := by
  unfold doFind at hr
  split at hr
  · injection hr with hr; rw [← hr]; exact h
  · split at hr
    · injection hr with hr; rw [← hr]; exact (filterItems_exact hit hm c intr s hc h).1
    · simp only [Option.map_eq_some_iff] at hr
      obtain ⟨x, _, rfl⟩ := hr
      cases x with
      | some i => exact h.same (jump_same s i).1
      | none =>
        simp only []
        split <;> exact h

theorem found_exact (hit : List Nat → ι → Bool) (c : Cfg) (need : Bool) (r : Bool × T ι) (h : Exact hit r.2) : Exact hit (found c need r) := by
  unfold found
  split
  · exact h.same (display_same c _).1
  · exact h

theorem search_exact (hit start : List Nat → ι → Bool) (hm : ∀ a b x, a <+: b → hit b x = true → hit a x = true) (c : Cfg) (intr fb : Bool)
    (s : T ι) (hc : Core c s) (h : Exact hit s) (s' : T ι) (hs : search hit start c intr fb s = some s') : Exact hit s' := by
  unfold search at hs
  have hd := h.same (display_same c s).1
  split at hs
  · split at hs
    · injection hs with hs; rw [← hs]; exact hd
    · obtain ⟨r, e, rfl⟩ := Option.map_eq_some_iff.mp hs
      exact found_exact hit c true r (doFind_exact hit start hm c intr 1 fb false s hc h r e)
  · split at hs
    · obtain ⟨r, e, rfl⟩ := Option.map_eq_some_iff.mp hs
      exact found_exact hit c true r (doFind_exact hit start hm c intr 1 fb true s hc h r e)
    · injection hs with hs; rw [← hs]; exact hd

theorem same_nav (c : Cfg) (s : T ι) (i t : Int) (g : Bool) : Same s (navigated c { s with index := i, top := t, ignore := g }) :=
  (same_sel s i t g).trans (navigated_same c _).1

theorem step_exact (hit start : List Nat → ι → Bool) (hm : ∀ a b x, a <+: b → hit b x = true → hit a x = true) (c : Cfg) (intr : Bool) (e : Ev)
    (s : T ι) (hi : Inv c s) (h : Exact hit s) (ht : ¬ Trouble c s e) (r : R ι) (hs : step hit start c intr e s = some r) (hcl : r.closed = none) :
    Exact hit r.s := by
  have hc := hi.1
  have hc' := hi.1.sel s.index s.top false
  have h' : Exact hit { s with ignore := false } := h
  unfold step at hs
  rw [if_neg (by have := hc.vis; omega)] at hs
  cases e with
  | up => injection hs with hs; rw [← hs]; exact h.same (same_nav c s _ s.top false)
  | down => injection hs with hs; rw [← hs]; exact h.same (same_nav c s _ s.top false)
  | home => injection hs with hs; rw [← hs]; exact h.same (same_nav c s _ s.top false)
  | fin => injection hs with hs; rw [← hs]; exact h.same (same_nav c s _ s.top false)
  | wheelUp n => injection hs with hs; rw [← hs]; exact h.same (same_nav c s _ s.top false)
  | wheelDown n => injection hs with hs; rw [← hs]; exact h.same (same_nav c s _ s.top false)
  | pgup =>
    injection hs with hs; rw [← hs]
    simp only []
    unfold pgup
    simp only []
    split
    · exact h.same (same_nav c s _ s.top false)
    · exact h
  | pgdn =>
    injection hs with hs; rw [← hs]
    simp only []
    unfold pgdn
    simp only []
    split
    · generalize (min (s.count - 1) (if s.index = s.top + (min s.count s.vis - scrollOfs c { s with ignore := false }) - 1 then
        s.index + (min s.count s.vis - scrollOfs c { s with ignore := false }) else s.top + (min s.count s.vis - scrollOfs c { s with ignore := false }) - 1)) = n
      split
      · refine Exact.same h' (Same.trans ?_ (navigated_same c _).1)
        exact (same_sel s (s.index + (n - s.index)) s.top false).trans ((setTop_same _ _ false).1.trans (same_sel _ _ _ _))
      · exact h.same (same_nav c s _ s.top false)
    · exact h
  | bar row =>
    injection hs with hs; rw [← hs]
    simp only []
    unfold bar
    simp only []
    refine Exact.same h' (Same.trans ?_ (navigated_same c _).1)
    exact (same_sel s _ s.top false).trans (setTop_same _ _ false).1
  | drag row can speed =>
    simp only [] at hs
    split at hs
    · injection hs with hs; rw [← hs]; exact h.same (same_nav c s _ s.top true)
    · split at hs
      · injection hs with hs; rw [← hs]
        simp only []
        unfold dragOut
        simp only []
        split
        · split
          · refine Exact.same h' (Same.trans ?_ (navigated_same c _).1)
            exact (setTop_same _ _ true).1.trans (same_sel _ _ _ _)
          · exact h
        · split
          · refine Exact.same h' (Same.trans ?_ (navigated_same c _).1)
            exact (setTop_same _ _ true).1.trans (same_sel _ _ _ _)
          · exact h
      · injection hs with hs; rw [← hs]; exact h
  | click row inside dbl =>
    simp only [] at hs
    split at hs
    · injection hs with hs; rw [← hs] at hcl; cases hcl
    · split at hs
      · injection hs with hs; rw [← hs]; exact h
      · split at hs
        · split at hs
          · rename_i hr _
            have hp : Pre { s with index := row + s.top, ignore := true } := by
              have hg := hi.2
              have := hc.vis
              unfold Good at hg; unfold Pre; simp only []; omega
            obtain ⟨r', e', hr', _⟩ := use_ok c (display c { s with index := row + s.top, ignore := true })
              (display_inv c _ (hc.sel _ s.top true) hp).1
            rw [e'] at hs
            injection hs with hs
            rw [hs] at hr'
            exact absurd hcl hr'
          · injection hs with hs; rw [← hs]; exact h.same (same_nav c s _ s.top true)
        · injection hs with hs; rw [← hs]; exact h
  | find prev =>
    simp only [] at hs
    split at hs
    · injection hs with hs; rw [← hs]; exact h
    · obtain ⟨x, e, rfl⟩ := Option.map_eq_some_iff.mp hs
      exact found_exact hit c false x (doFind_exact hit start hm c intr _ false true _ hc' h' x e)
  | copy =>
    simp only [] at hs
    split at hs
    · cases hs
    · obtain ⟨x, e, rfl⟩ := Option.map_eq_some_iff.mp hs
      exact h
  | enter =>
    simp only [] at hs
    split at hs
    · injection hs with hs; rw [← hs]; exact h
    · obtain ⟨r', e', hr', _⟩ := use_ok c _ hc'
      rw [e'] at hs
      injection hs with hs
      rw [hs] at hr'
      exact absurd hcl hr'
  | cancel => injection hs with hs; rw [← hs] at hcl; cases hcl
  | del ok =>
    simp only [] at hs
    unfold delete at hs
    split at hs
    · injection hs with hs; rw [← hs]; exact h
    · obtain ⟨o, _, hs⟩ := Option.bind_eq_some_iff.mp hs
      obtain ⟨ext, _, hs⟩ := Option.bind_eq_some_iff.mp hs
      split at hs
      · injection hs with hs; rw [← hs]; exact h
      · rename_i hok
        simp only [] at hs
        have hf : s.fstr = [] := by
          by_cases hf : s.fstr = []
          · exact hf
          · exact absurd ⟨by simpa using hok, hf⟩ ht
        split at hs
        · injection hs with hs; rw [← hs] at hcl; cases hcl
        · injection hs with hs; rw [← hs]
          intro hh
          rw [(settle_same c _).2.2.1] at hh
          exact absurd hf hh
  | toggle =>
    simp only [] at hs
    split at hs
    · injection hs with hs; rw [← hs]; exact h
    · obtain ⟨x, e, rfl⟩ := Option.map_eq_some_iff.mp hs
      generalize hs1 : (if s.filter = true then clearFilter { s with ignore := false } else { s with ignore := false }) = s1 at e
      have h1 : Core c s1 ∧ s1.fstr = [] := by
        rw [← hs1]
        by_cases hf : s.filter = true
        · rw [if_pos hf]; exact clearFilter_core c _ hc'
        · rw [if_neg hf]
          refine ⟨hc', ?_⟩
          show s.fstr = []
          by_cases e : s.fstr = []
          · exact e
          · exact absurd (hc.some e).2.1 hf
      obtain ⟨a, b⟩ := h1
      exact search_exact hit start hm c intr false { s1 with filter := ! s1.filter } ⟨a.1, a.2, a.3, a.4, fun hh => absurd b hh, a.6, a.7, a.8, a.9⟩ (fun hh => absurd b hh) x e
  | needle n back clear =>
    simp only [] at hs
    obtain ⟨x, e, rfl⟩ := Option.map_eq_some_iff.mp hs
    exact search_exact hit start hm c intr _
      { s with ignore := false, needle := n, notFound := if back = true ∨ clear = true then false else s.notFound } ⟨hc'.1, hc'.2, hc'.3, hc'.4, hc'.5, hc'.6, hc'.7, hc'.8, hc'.9⟩ h x e
  | number i =>
    simp only [] at hs
    split at hs
    · injection hs with hs; rw [← hs]
      exact h'.same ((jump_same _ i).1.trans (display_same c _).1)
    · injection hs with hs; rw [← hs]
      exact h'.same (display_same c _).1

theorem reach_exact (hit start : List Nat → ι → Bool) (hm : ∀ a b x, a <+: b → hit b x = true → hit a x = true) (c : Cfg) (s : T ι)
    (h : Reach hit start c s) : Exact hit s := by
  induction h with
  | init items infos filter vis index s hi h =>
    unfold activate at h
    split at h
    · cases h
    · split at h
      · cases h
      · injection h with h
        rw [← h]
        exact Exact.same (fun hh => absurd rfl hh) (display_same c _).1
  | step s intr e r hr ht hs hcl ih => exact step_exact hit start hm c intr e s (reach_inv hit start c s hr) ih ht r hs hcl

theorem having_shown (hit : List Nat → ι → Bool) (items : List ι) (n : List Nat) (i : Nat) :
    shown items (some (having hit items n)) i = (items.filter (hit n))[i]? := by
  have key : ∀ (xs pre : List ι), items = pre ++ xs → ∀ i : Nat,
      (((List.range' pre.length xs.length).filter fun i => match items[i]? with | some x => hit n x | none => false)[i]?).bind (items[·]?) =
        (xs.filter (hit n))[i]? := by
    intro xs
    induction xs with
    | nil => intro pre _ i; simp
    | cons x xs ih =>
      intro pre e i
      have hx : items[pre.length]? = some x := by rw [e]; simp
      have ih' := ih (pre ++ [x]) (by simp [e])
      rw [List.length_append, List.length_singleton] at ih'
      rw [List.length_cons, List.range'_succ, List.filter_cons, List.filter_cons]
      simp only [hx]
      cases hh : hit n x with
      | false => simpa [hh] using ih' i
      | true =>
        cases i with
        | zero => simpa using hx
        | succ i => simpa [hh] using ih' i
  unfold shown having
  simp only []
  have := key items [] rfl i
  rw [List.length_nil, ← List.range_eq_range'] at this
  exact this

/-- In the filter mode the list shows exactly the items that have the needle, in their order. -/
theorem C71_filtered (hit start : List Nat → ι → Bool) (hm : ∀ a b x, a <+: b → hit b x = true → hit a x = true) (c : Cfg) (s : T ι)
    (h : Reach hit start c s) (i : Nat) :
    shown s.items (filterOf s) i = (if s.fstr = [] then s.items else s.items.filter (hit s.fstr))[i]? := by
  unfold filterOf
  by_cases hf : s.fstr = []
  · rw [if_pos hf, if_pos hf]; rfl
  · rw [if_neg hf, if_neg hf, reach_exact hit start hm c s h hf, having_shown]

/-- Typing in the filter mode filters by the new needle and selects the first item, in a reversed list the last one. -/
theorem C71_filter (hit start : List Nat → ι → Bool) (hm : ∀ a b x, a <+: b → hit b x = true → hit a x = true) (c : Cfg) (s : T ι)
    (h : Reach hit start c s) (n : List Nat) (back clear : Bool) (hf : s.filter = true) (hw : c.win = false)
    (hn : s.notFound = false ∨ back = true ∨ clear = true) (h0 : n ≠ []) :
    ∃ r, step hit start c false (.needle n back clear) s = some r ∧ r.closed = none ∧ r.s.fstr = n ∧ r.s.items = s.items ∧
      (s.fstr ≠ n → r.s.index = if c.reverse then max 0 (r.s.count - 1) else 0) := by
  have hi := reach_inv hit start c s h
  have hc := hi.1
  have hv := hi.1.vis
  have hnf : (if back = true ∨ clear = true then false else s.notFound) = false := by
    split
    · rfl
    · rename_i hh
      rcases hn with hn | hn
      · exact hn
      · exact absurd hn hh
  unfold step
  rw [if_neg (by omega)]
  simp only [hnf, hw, Bool.not_false, Bool.and_true]
  unfold search
  rw [if_pos (by simp [hw])]
  simp only [Bool.false_eq_true, if_false]
  unfold doFind
  simp only [Bool.false_eq_true, if_false]
  rw [if_pos ⟨hf, by simp [hw]⟩]
  obtain ⟨_, k⟩ := filterItems_exact hit hm c false { s with ignore := false, needle := n, notFound := false }
    ⟨hc.1, hc.2, hc.3, hc.4, hc.5, hc.6, hc.7, hc.8, hc.9⟩ (reach_exact hit start hm c s h)
  obtain ⟨k1, k2, k3⟩ := k rfl h0
  refine ⟨_, rfl, rfl, ?_⟩
  simp only []
  have ef : found c true (filterItems hit c false { s with ignore := false, needle := n, notFound := false }) =
      display c (filterItems hit c false { s with ignore := false, needle := n, notFound := false }).2 := by
    unfold found; exact if_pos (.inr rfl)
  have ds := display_same c (filterItems hit c false { s with ignore := false, needle := n, notFound := false }).2
  rw [ef]
  refine ⟨ds.1.2.2.1.trans k1, ds.1.1.trans k2, fun hh => ?_⟩
  rw [ds.2, ds.1.2.2.2.2.1]
  exact (k3 hh).2

theorem setTop_saved (s : T ι) (t : Int) (g : Bool) : (setTop s t g).savedIndex = s.savedIndex ∧ (setTop s t g).filter = s.filter ∧
    (setTop s t g).notFound = s.notFound := by
  unfold setTop
  split <;> exact ⟨rfl, rfl, rfl⟩

theorem updateTop_saved (c : Cfg) (s : T ι) : (updateTop c s).savedIndex = s.savedIndex ∧ (updateTop c s).filter = s.filter ∧
    (updateTop c s).notFound = s.notFound := by
  have hr : (reveal s).savedIndex = s.savedIndex ∧ (reveal s).filter = s.filter ∧ (reveal s).notFound = s.notFound := by
    unfold reveal
    simp only []
    split
    · exact setTop_saved ..
    · split
      · exact setTop_saved ..
      · exact ⟨rfl, rfl, rfl⟩
  unfold updateTop
  simp only []
  generalize reveal s = s1 at *
  have key : ∀ t, (setTop s1 t false).savedIndex = s.savedIndex ∧ (setTop s1 t false).filter = s.filter ∧
      (setTop s1 t false).notFound = s.notFound := fun t =>
    ⟨(setTop_saved s1 t false).1.trans hr.1, (setTop_saved s1 t false).2.1.trans hr.2.1, (setTop_saved s1 t false).2.2.trans hr.2.2⟩
  split
  · exact hr
  · split
    · split
      · exact key _
      · split
        · exact key _
        · exact hr
    · exact hr

theorem display_saved (c : Cfg) (s : T ι) : (display c s).savedIndex = s.savedIndex ∧ (display c s).filter = s.filter ∧
    (display c s).notFound = s.notFound := by
  unfold display
  simp only []
  split
  · exact updateTop_saved c s
  · exact ⟨rfl, rfl, rfl⟩

/-- When the needle is deleted again, the whole list is back and the item that was selected before is selected again. -/
theorem C71_unfilter (hit start : List Nat → ι → Bool) (c : Cfg) (s : T ι) (h : Reach hit start c s) (n : List Nat) (clear clear2 : Bool)
    (hf : s.filter = true) (hw : c.win = false) (hn : s.notFound = false) (h0 : n ≠ []) (hs0 : s.fstr = []) :
    ∃ r r2, step hit start c false (.needle n false clear) s = some r ∧ step hit start c false (.needle [] true clear2) r.s = some r2 ∧
      r2.closed = none ∧ r2.s.fstr = [] ∧ r2.s.items = s.items ∧ r2.s.count = s.items.length ∧ r2.s.index = s.index := by
  have hi := reach_inv hit start c s h
  have hc := hi.1
  have hv := hi.1.vis
  obtain ⟨r, e1, hinv⟩ := step_inv hit start c false (.needle n false clear) s hi (fun ht => ht)
  refine ⟨r, ?_⟩
  -- the first step
  have key : r.closed = none ∧ r.s.fstr = n ∧ r.s.items = s.items ∧ r.s.savedIndex = s.index ∧ r.s.filter = true ∧ r.s.orig = s.orig := by
    unfold step at e1
    rw [if_neg (by omega)] at e1
    have hnf : (if (false = true ∨ clear = true) then false else s.notFound) = false := by rw [hn]; split <;> rfl
    simp only [hnf, hw] at e1
    unfold search at e1
    rw [if_pos (by simp [hw])] at e1
    simp only [Bool.false_eq_true, if_false] at e1
    unfold doFind at e1
    simp only [Bool.false_eq_true, if_false] at e1
    rw [if_pos ⟨hf, by simp [hw]⟩] at e1
    have e2 : filterItems hit c false { s with ignore := false, needle := n, notFound := false } =
        (true, updateTop c (setTop ({ ({ s with ignore := false, needle := n, notFound := false, savedIndex := s.index, savedTop := s.top } : T ι) with
          filtered := newFiltered hit { s with ignore := false, needle := n, notFound := false },
          count := ((newFiltered hit { s with ignore := false, needle := n, notFound := false }).length : Int), fstr := n,
          index := (if c.reverse then max 0 (((newFiltered hit { s with ignore := false, needle := n, notFound := false }).length : Int) - 1) else 0) } : T ι) 0 false)) := by
      unfold filterItems
      rw [if_neg (by simp only []; rw [hs0]; exact fun hh => h0 hh.symm), if_neg h0, if_neg (by simp)]
      simp only []
      rw [if_pos hs0]
    rw [e2] at e1
    generalize hs2 : ({ ({ s with ignore := false, needle := n, notFound := false, savedIndex := s.index, savedTop := s.top } : T ι) with
          filtered := newFiltered hit { s with ignore := false, needle := n, notFound := false },
          count := ((newFiltered hit { s with ignore := false, needle := n, notFound := false }).length : Int), fstr := n,
          index := (if c.reverse then max 0 (((newFiltered hit { s with ignore := false, needle := n, notFound := false }).length : Int) - 1) else 0) } : T ι) = s2 at e1
    have e3 : r = { s := display c (updateTop c (setTop s2 0 false)) } := by
      injection e1 with e1
      rw [← e1]
      simp [found]
    have f := (setTop_same s2 0 false).1.trans ((updateTop_same c (setTop s2 0 false)).1.trans (display_same c (updateTop c (setTop s2 0 false))).1)
    have g1 := setTop_saved s2 0 false
    have g2 := updateTop_saved c (setTop s2 0 false)
    have g3 := display_saved c (updateTop c (setTop s2 0 false))
    rw [e3]
    refine ⟨rfl, ?_, ?_, ?_, ?_, ?_⟩
    · simp only []; rw [f.2.2.1, ← hs2]
    · simp only []; rw [f.1, ← hs2]
    · simp only []; rw [g3.1, g2.1, g1.1, ← hs2]
    · simp only []; rw [g3.2.1, g2.2.1, g1.2.1, ← hs2]; exact hf
    · simp only []; rw [f.2.2.2.2.2.2.1, ← hs2]
  obtain ⟨k1, k2, k3, k4, k5, k6⟩ := key
  have hi2 := hinv k1
  have hv2 := hi2.1.vis
  -- the second step
  have e4 : step hit start c false (.needle [] true clear2) r.s =
      some { s := display c (clearFilter { r.s with ignore := false, needle := [], notFound := false }) } := by
    unfold step
    rw [if_neg (by omega)]
    simp only [true_or, if_true, hw]
    unfold search
    rw [if_pos (by simp [hw])]
    simp only [Bool.false_eq_true, if_false]
    unfold doFind
    simp only [Bool.false_eq_true, if_false]
    rw [if_pos ⟨k5, by simp [hw]⟩]
    have e5 : filterItems hit c false { r.s with ignore := false, needle := [], notFound := false } =
        (true, clearFilter { r.s with ignore := false, needle := [], notFound := false }) := by
      unfold filterItems
      rw [if_neg (by simp only []; rw [k2]; exact h0), if_pos rfl]
    rw [e5]
    simp [found]
  refine ⟨_, e1, e4, rfl, ?_⟩
  have ds := display_same c (clearFilter { r.s with ignore := false, needle := [], notFound := false })
  have ec : clearFilter { r.s with ignore := false, needle := [], notFound := false } =
      setTop { r.s with needle := [], notFound := false, count := r.s.orig, fstr := [], filtered := [], index := r.s.savedIndex, ignore := false } r.s.savedTop false := by
    unfold clearFilter
    exact if_pos (by simp only []; rw [k2]; exact h0)
  have st := setTop_same { r.s with needle := [], notFound := false, count := r.s.orig, fstr := [], filtered := [], index := r.s.savedIndex, ignore := false } r.s.savedTop false
  simp only []
  rw [ec] at ds
  rw [ec]
  refine ⟨ds.1.2.2.1.trans st.1.2.2.1, ?_, ?_, ?_⟩
  · rw [ds.1.1, st.1.1]; exact k3
  · rw [ds.1.2.2.2.2.1, st.1.2.2.2.2.1]
    show r.s.orig = _
    rw [k6]
    exact hc.orig
  · rw [ds.2, st.2]; exact k4

/-! Deleting -/

/-- Deleting removes the item that is shown as selected; all the others stay in their order, also in a filtered list; and the numbers of
the history lines still belong to the same lines. -/
theorem C71_delete (hit start : List Nat → ι → Bool) (c : Cfg) (s : T ι) (h : Reach hit start c s) (intr : Bool) (hc0 : 0 < s.count)
    (h2 : 2 ≤ s.items.length) :
    ∃ r o e, step hit start c intr (.del true) s = some r ∧ r.closed = none ∧ s.items[o]? = shown s.items (filterOf s) s.index.toNat ∧
      o < s.items.length ∧ r.s.items = s.items.eraseIdx o ∧
      (∀ i, shown r.s.items (filterOf r.s) i = shown s.items (filterOf s) (if i < s.index.toNat then i else i + 1)) ∧
      r.removed = some e ∧ (s.infos = none → e = o ∧ r.s.infos = none) ∧
      (∀ l, s.infos = some l → l.Pairwise (· < ·) → l[o]? = some e ∧ ∃ l', r.s.infos = some l' ∧ l'.Pairwise (· < ·) ∧
        ∀ (hist : List ι) (i : Nat), (l'[i]?).bind ((hist.eraseIdx e)[·]?) = (l[if i < o then i else i + 1]?).bind (hist[·]?)) := by
  have hi := reach_inv hit start c s h
  have hc := hi.1
  have hv := hi.1.vis
  have hg := hi.2
  unfold Good at hg
  have hio := hc.orig
  unfold step
  rw [if_neg (by omega)]
  simp only []
  unfold delete
  rw [if_neg (by simp only []; omega)]
  obtain ⟨o, eo, ho⟩ := original_of c { s with ignore := false } (hc.sel s.index s.top false) s.index (by omega) (by simp only []; omega)
  simp only [] at eo ho ⊢
  rw [eo]
  simp only [Option.bind_some]
  have hx : ∃ ext, external { s with ignore := false } o = some ext := by
    unfold external
    simp only []
    cases e : s.infos with
    | none => exact ⟨_, rfl⟩
    | some l =>
      have := hc.inf l e
      exact ⟨_, List.getElem?_eq_getElem (show o < l.length by omega)⟩
  obtain ⟨ext, ex⟩ := hx
  rw [ex]
  simp only [Option.bind_some, not_true_eq_false, if_false]
  have horig : ¬ (erase { s with ignore := false } o).orig = 0 := by
    show ¬ s.orig - 1 = 0
    omega
  rw [if_neg horig]
  have ss := settle_same c (erase { s with ignore := false } o)
  have eo' : original s s.index = some o := eo
  have hsh : s.items[o]? = shown s.items (filterOf s) s.index.toNat := by
    rw [← itemAt_shown s s.index (by omega), itemAt, eo']
    rfl
  refine ⟨_, o, ext, rfl, rfl, hsh, ho, ss.1, ?_, rfl, ?_, ?_⟩
  · intro i
    simp only []
    have ef : filterOf (settle c (erase { s with ignore := false } o)) = if s.fstr = [] then none else some (erase { s with ignore := false } o).filtered := by
      unfold filterOf
      rw [ss.2.2.1, ss.2.2.2.1]
      rfl
    rw [ef, ss.1]
    unfold filterOf shown
    by_cases hf : s.fstr = []
    · rw [if_pos hf, if_pos hf]
      simp only []
      unfold original at eo'
      rw [if_neg (by omega), if_neg (by simpa using hf)] at eo'
      injection eo' with eo'
      show (s.items.eraseIdx o)[i]? = _
      rw [← eo', List.getElem?_eraseIdx]
      split <;> rfl
    · rw [if_neg hf, if_neg hf]
      simp only []
      unfold original at eo'
      rw [if_neg (by omega), if_pos hf] at eo'
      have hne : s.filtered ≠ [] := by
        intro hh
        rw [hh] at eo'
        simp at eo'
      have e1 : (erase { s with ignore := false } o).filtered = shrink s.filtered s.index.toNat := by
        unfold erase
        simp only []
        rw [if_pos hne]
        rfl
      rw [e1]
      show ((shrink s.filtered s.index.toNat)[i]?).bind ((s.items.eraseIdx o)[·]?) = _
      rw [shrink_at s.filtered hc.sorted s.index.toNat o eo' s.items i]
      split <;> rfl
  · intro hn
    unfold external at ex
    rw [hn] at ex
    injection ex with ex
    refine ⟨ex.symm, ?_⟩
    simp only []
    rw [ss.2.1]
    unfold erase
    simp [hn]
  · intro l hl hsort
    unfold external at ex
    simp only [hl] at ex
    refine ⟨ex, shrink l o, ?_, shrink_sorted l hsort o ext ex, ?_⟩
    · simp only []
      rw [ss.2.1]
      unfold erase
      simp [hl, shrink]
    · intro hist i
      rw [shrink_at l hsort o ext ex hist i]
      split <;> rfl

/-! Examples and violations: items are numbers, and a needle is found in an item that is equal to all of its bytes. -/

def exHit (n : List Nat) (x : Nat) : Bool := n.all (· == x)
def exCfg : Cfg := { wrap := true, ofs := 3, delUp := false, reverse := false, win := false }

/-- Several inputs; the list of results.  -/
def runs (c : Cfg) : T Nat → List Ev → Option (R Nat)
  | s, [] => some { s := s }
  | s, [e] => step exHit exHit c false e s
  | s, e :: es => (step exHit exHit c false e s).bind fun r => runs c r.s es

/-- A list of numbers that has just been opened, with `vis` rows. -/
def opened (c : Cfg) (filter : Bool) (items : List Nat) (vis index : Int) : Option (T Nat) := activate c items none filter vis index

theorem exHit_mono : ∀ a b x, a <+: b → exHit b x = true → exHit a x = true := by
  intro a b x ⟨t, h⟩ hb
  subst h
  simp only [exHit, List.all_append, Bool.and_eq_true] at *
  exact hb.1

instance (c : Cfg) (s : T ι) (e : Ev) : Decidable (Trouble c s e) := by
  cases e
  case pgup => exact inferInstanceAs (Decidable (0 < s.index ∧ 2 * s.count ≤ s.index + margin c.ofs s.vis))
  case del ok => exact inferInstanceAs (Decidable (ok = true ∧ s.fstr ≠ []))
  case wheelDown n => exact inferInstanceAs (Decidable (s.count = 0 ∧ 0 < n))
  all_goals exact inferInstanceAs (Decidable False)

/-- For the examples: no input of the sequence is in trouble and the list stays open. -/
def calm (c : Cfg) : T Nat → List Ev → Bool
  | _, [] => true
  | s, e :: es =>
    ! decide (Trouble c s e) &&
    match step exHit exHit c false e s with
    | some r => r.closed.isNone && calm c r.s es
    | none => false

theorem calm_reach (c : Cfg) (es : List Ev) : ∀ (s : T Nat) (r : R Nat), Reach exHit exHit c s → calm c s es = true → runs c s es = some r →
    Reach exHit exHit c r.s := by
  induction es with
  | nil => intro s r h _ hr; injection hr with hr; rw [← hr]; exact h
  | cons e es ih =>
    intro s r h hc hr
    have hc : (! decide (Trouble c s e) && match step exHit exHit c false e s with
      | some r => r.closed.isNone && calm c r.s es
      | none => false) = true := hc
    rw [Bool.and_eq_true] at hc
    obtain ⟨h1, h2⟩ := hc
    have ht : ¬ Trouble c s e := by simpa using h1
    cases hs : step exHit exHit c false e s with
    | none => rw [hs] at h2; cases h2
    | some r' =>
      rw [hs] at h2
      simp only [Bool.and_eq_true, Option.isNone_iff_eq_none] at h2
      have hR := Reach.step s false e r' h ht hs h2.1
      cases es with
      | nil =>
        have : runs c s [e] = step exHit exHit c false e s := rfl
        rw [this, hs] at hr
        injection hr with hr
        rw [← hr]
        exact hR
      | cons e2 es =>
        have : runs c s (e :: e2 :: es) = (step exHit exHit c false e s).bind fun r => runs c r.s (e2 :: es) := rfl
        rw [this, hs] at hr
        exact ih r'.s r hR h2.2 hr

/-- A state of the examples is reached. -/
theorem ex_reach (c : Cfg) (filter : Bool) (items : List Nat) (vis index : Int) (es : List Ev) (s : T Nat)
    (h : ((opened c filter items vis index).bind fun s0 => if calm c s0 es = true then runs c s0 es else none).map (·.s) = some s) :
    Reach exHit exHit c s := by
  cases ho : opened c filter items vis index with
  | none => rw [ho] at h; cases h
  | some s0 =>
    rw [ho] at h
    simp only [Option.bind_some] at h
    by_cases hc : calm c s0 es = true
    · rw [if_pos hc] at h
      obtain ⟨r, hr, rfl⟩ := Option.map_eq_some_iff.mp h
      exact calm_reach c es s0 r (.init items none filter vis index s0 (by simp) ho) hc hr
    · rw [if_neg hc] at h; cases h

/-- Violation with the default settings: five items, the fourth one is selected: PgDn selects the second one. -/
theorem C71_pgdn_up_violated : ∃ s r, Reach exHit exHit exCfg s ∧ s.index = 3 ∧ s.count = 5 ∧
    step exHit exHit exCfg false .pgdn s = some r ∧ r.s.index = 1 :=
  ⟨_, _, ex_reach exCfg false [10, 11, 12, 13, 14] 10 0 [.down, .down, .down] { items := [10, 11, 12, 13, 14], count := 5, orig := 5, index := 3, top := 0, vis := 10 } (by decide +kernel),
    rfl, rfl, rfl, by decide +kernel⟩

/-- Violation with the default settings: two items, the second one is selected: after PgUp nothing is selected, and Ctrl-C reads
behind the end of the array. -/
theorem C71_pgup_read_violated : ∃ s r, Reach exHit exHit exCfg s ∧ s.index = 1 ∧ s.items = [10, 11] ∧
    step exHit exHit exCfg false .pgup s = some r ∧ r.closed = none ∧ r.s.index = 2 ∧ step exHit exHit exCfg false .copy r.s = none :=
  ⟨_, _, ex_reach exCfg false [10, 11] 10 0 [.down] { items := [10, 11], count := 2, orig := 2, index := 1, top := 0, vis := 10 } (by decide +kernel),
    rfl, rfl, rfl, by decide +kernel, by decide +kernel, by decide +kernel⟩

def exFiltered : T Nat := { items := [10, 11, 12], count := 1, orig := 3, index := 0, top := 0, vis := 10, filter := true, fstr := [12], filtered := [2], savedIndex := 2, savedTop := 0, needle := [12] }

theorem exFiltered_reach : Reach exHit exHit exCfg exFiltered :=
  ex_reach exCfg true [10, 11, 12] 10 2 [.needle [12] false false] exFiltered (by decide +kernel)

/-- Violation: in a filtered list Ctrl-C copies another item: it takes the place in the filtered list for a place in the whole list. -/
theorem C71_copy_violated : ∃ r, step exHit exHit exCfg false .copy exFiltered = some r ∧ r.copied = some 10 ∧
    shown exFiltered.items (filterOf exFiltered) exFiltered.index.toNat = some 12 := ⟨_, rfl, by decide +kernel, by decide +kernel⟩

/-- Violation: deleting the only item that the filter has left makes the selection -1, and Ctrl-C reads before the array. -/
theorem C71_delete_filtered_violated : ∃ r, step exHit exHit exCfg false (.del true) exFiltered = some r ∧ r.closed = none ∧ r.s.index = -1 ∧
    step exHit exHit exCfg false .copy r.s = none := ⟨_, rfl, by decide +kernel, by decide +kernel, by decide +kernel⟩

/-- Violation: removing the filter after an item was deleted selects the item that was selected before the filter, by its old number, which
may not exist any more; Ctrl-C reads behind the end of the array. -/
theorem C71_unfilter_violated : ∃ r, runs exCfg exFiltered [.del true, .needle [] true false] = some r ∧ r.closed = none ∧ r.s.index = 2 ∧ r.s.count = 2 ∧
    step exHit exHit exCfg false .copy r.s = none := ⟨_, rfl, by decide +kernel, by decide +kernel, by decide +kernel, by decide +kernel⟩

/-- Violation: the mouse wheel in a list without any item that has the needle selects an item that does not exist. -/
theorem C71_wheel_violated : ∃ s r, Reach exHit exHit exCfg s ∧ s.count = 0 ∧ step exHit exHit exCfg false (.wheelDown 3) s = some r ∧ r.s.index = 3 ∧
    step exHit exHit exCfg false .copy r.s = none :=
  ⟨_, _, ex_reach exCfg true [10, 11, 12] 10 2 [.needle [13] false false]
    { items := [10, 11, 12], count := 0, orig := 3, index := 0, top := 0, vis := 10, filter := true, fstr := [13], filtered := [], savedIndex := 2, savedTop := 0, needle := [13] } (by decide +kernel),
    rfl, rfl, by decide +kernel, by decide +kernel⟩

/-- Violation: after a search that found nothing, F4 changes to the filter mode, but the list is not filtered, whatever is typed. -/
theorem C71_toggle_violated : ∃ s r, Reach exHit exHit exCfg s ∧ step exHit exHit exCfg false (.needle [12] false false) s = some r ∧ s.filter = true ∧
    r.s.needle = [12] ∧ shown r.s.items (filterOf r.s) 0 = some 10 :=
  ⟨_, _, ex_reach exCfg false [10, 11, 12] 10 0 [.needle [13] false false, .toggle]
    { items := [10, 11, 12], count := 3, orig := 3, index := 0, top := 0, vis := 10, filter := true, needle := [13], notFound := true } (by decide +kernel),
    rfl, rfl, by decide +kernel, by decide +kernel⟩

def ex20 : List Nat := List.range 20

-- Twenty items in ten rows: End, three times Up: there are three items below the selected one.
example : ((opened exCfg false ex20 10 0).bind fun s => runs exCfg s [.fin, .up, .up, .up, .up]).map (fun r => (r.s.index, r.s.top)) = some (15, 10) := by
  decide +kernel
-- The hypotheses of `C71_moves`.
example : target true 20 0 .up = some 19 ∧ target true 20 17 (.wheelDown 5) = some 19 ∧ target false 20 19 .down = some 19 := by decide
-- PgUp and PgDn, `C71_pgup` and `C71_pgdn`.
example : ((opened exCfg false ex20 10 0).bind fun s => runs exCfg s [.pgdn]).map (fun r => (r.s.index, r.s.top)) = some (6, 0) := by decide +kernel
example : ((opened exCfg false ex20 10 0).bind fun s => runs exCfg s [.pgdn, .pgdn, .pgup]).map (fun r => (r.s.index, r.s.top)) = some (10, 7) := by
  decide +kernel
-- Searching: `C71_type`, `C71_find`.
example : ((opened exCfg false [1, 2, 3, 2, 1] 3 0).bind fun s => runs exCfg s [.needle [2] false false]).map (fun r => r.s.index) = some 1 := by decide +kernel
example : ((opened exCfg false [1, 2, 3, 2, 1] 3 0).bind fun s => runs exCfg s [.needle [2] false false, .find false, .find false]).map (fun r => r.s.index) = some 1 := by
  decide +kernel
example : ((opened exCfg false [1, 2, 3, 2, 1] 3 0).bind fun s => runs exCfg s [.needle [2] false false, .find true]).map (fun r => r.s.index) = some 3 := by
  decide +kernel
-- Filtering, choosing, deleting: `C71_filter`, `C71_filtered`, `C71_choice`, `C71_delete`.
example : ((opened exCfg true [1, 2, 3, 2, 1] 3 4).bind fun s => runs exCfg s [.needle [2] false false, .down, .enter]).map (fun r => r.closed) = some (some (some (3, 2))) := by
  decide +kernel
example : ((opened exCfg true [1, 2, 3, 2, 1] 3 4).bind fun s => runs exCfg s [.needle [1] false false, .del true]).map (fun r => (r.s.items, r.s.filtered, r.removed)) =
    some ([2, 3, 2, 1], [3], some 0) := by
  decide +kernel
-- A click, `C71_click`, and removing the filter, `C71_unfilter`.
example : ((opened exCfg false ex20 10 12).bind fun s => runs exCfg s [.click 9 true false]).map (fun r => (r.s.index, r.s.top)) = some (16, 7) := by
  decide +kernel
example : ((opened exCfg true [1, 2, 3, 2, 1] 3 4).bind fun s => runs exCfg s [.needle [2] false false, .needle [] true false]).map (fun r => (r.s.index, r.s.fstr)) = some (4, []) := by
  decide +kernel
-- The numbers of the history lines: `C71_delete`.
example : ((activate exCfg [11, 12, 14] (some [1, 2, 4]) false 3 0).bind fun s => runs exCfg s [.del true]).map (fun r => (r.s.infos, r.removed)) = some (some [1, 3], some 1) := by
  decide +kernel

end Clink.TextList
