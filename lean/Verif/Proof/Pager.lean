import Verif.Spec.Pager

namespace Clink.Pager
open Spec

theorem shown_append (a b : List Ev) : shown (a ++ b) = shown a ++ shown b := by
  induction a with
  | nil => rfl
  | cons e a ih => cases e <;> simp [shown, ih]

theorem shown_items (xs : List Item) : shown (xs.map .item) = xs := by
  induction xs with
  | nil => rfl
  | cons x xs ih => simp [shown, ih]

theorem ask_key {f : Nat → Key} {inp rest : List (Nat × Nat)} {k : Key} {rows : Nat} (h : ask f inp = some (k, rows, rest)) :
    k ≠ .help ∧ k ≠ .other := by
  induction inp with
  | nil => cases h
  | cons p inp ih =>
    obtain ⟨c, r⟩ := p
    unfold ask at h
    cases hk : f c <;> simp only [hk] at h
    all_goals first
      | exact ih h
      | (injection h with h; injection h with h1 h2; subst h1; exact ⟨by decide, by decide⟩)

theorem setLimit_wanted {k : Key} (hk : k ≠ .stop) (hh : k ≠ .help ∧ k ≠ .other) (rows : Nat) : setLimit k rows = wanted k rows := by
  cases k <;> simp_all [setLimit, wanted] <;> omega

theorem setLimit_nonneg (k : Key) (rows : Nat) : 0 ≤ setLimit k rows := by
  cases k <;> simp [setLimit] <;> omega

/-- One step of the pager. -/
theorem showFrom_cons (m : Int) (x : Item) (xs : List Item) (inp : List (Nat × Nat)) (h0 : 0 ≤ m) :
    (m = 0 ∧ showFrom m (x :: xs) inp = .item x :: showFrom 0 xs inp) ∨
    (m > 0 ∧ m - x.2 > 0 ∧ showFrom m (x :: xs) inp = .item x :: showFrom (m - x.2) xs inp) ∨
    (m > 0 ∧ m - x.2 ≤ 0 ∧ (showFrom m (x :: xs) inp = [.prompt none] ∨ (∃ r, showFrom m (x :: xs) inp = [.prompt (some (.stop, r))]) ∨
      ∃ k r rest, k ≠ .stop ∧ k ≠ .help ∧ k ≠ .other ∧
        showFrom m (x :: xs) inp = .prompt (some (k, r)) :: .item x :: showFrom (wanted k r) xs rest)) := by
  by_cases h1 : m = 0
  · left
    subst h1
    exact ⟨rfl, by simp [showFrom, onPrintLines]⟩
  right
  by_cases h2 : m - x.2 > 0
  · left
    refine ⟨by omega, h2, ?_⟩
    have hn : ¬ m < 0 := by omega
    have h2' : (x.2 : Int) < m := by omega
    simp [showFrom, onPrintLines, hn, h1, h2']
  right
  refine ⟨by omega, by omega, ?_⟩
  have hn : ¬ m < 0 := by omega
  have h2' : ¬ (x.2 : Int) < m := by omega
  cases ha : ask pagerKey inp with
  | none => left; simp [showFrom, onPrintLines, hn, h1, h2', ha]
  | some p =>
    obtain ⟨k, r, rest⟩ := p
    right
    by_cases hk : k = .stop
    · left
      subst hk
      exact ⟨r, by simp [showFrom, onPrintLines, hn, h1, h2', ha]⟩
    · right
      have hh := ask_key ha
      refine ⟨k, r, rest, hk, hh.1, hh.2, ?_⟩
      have hs := setLimit_wanted hk hh r
      have h0 : (0 : Int) ≤ wanted k r := by omega
      simp [showFrom, onPrintLines, hn, h1, h2', ha, hk, hs, h0]

theorem showFrom_nil (m : Int) (inp : List (Nat × Nat)) : showFrom m [] inp = [] := by simp [showFrom]

theorem showFrom_order (xs : List Item) : ∀ (m : Int) (inp : List (Nat × Nat)), 0 ≤ m →
    shown (showFrom m xs inp) <+: xs ∧ (¬ Stopped (showFrom m xs inp) → shown (showFrom m xs inp) = xs) := by
  induction xs with
  | nil => intro m inp _; rw [showFrom_nil]; simp [shown]
  | cons x xs ih =>
    have key : ∀ (m : Int) (inp) (out : List Ev), 0 ≤ m → shown (.item x :: showFrom m xs inp) <+: x :: xs ∧
        (¬ Stopped (.item x :: showFrom m xs inp) → shown (.item x :: showFrom m xs inp) = x :: xs) := by
      intro m inp _ hm
      obtain ⟨h1, h2⟩ := ih m inp hm
      constructor
      · simpa [shown] using h1
      · intro hs
        have : ¬ Stopped (showFrom m xs inp) := by
          intro h
          apply hs
          unfold Stopped at h ⊢
          rw [List.getLast?_cons]
          cases hl : (showFrom m xs inp).getLast? with
          | none => rw [hl] at h; simp at h
          | some e => rw [hl] at h; simpa using h
        simp [shown, h2 this]
    intro m inp h0
    rcases showFrom_cons m x xs inp h0 with ⟨_, h⟩ | ⟨_, h1, h⟩ | ⟨_, _, h | ⟨r, h⟩ | ⟨k, r, rest, _, _, _, h⟩⟩ <;> rw [h]
    · exact key 0 inp [] (by omega)
    · exact key _ inp [] (by omega)
    · exact ⟨by simp [shown], fun hs => absurd (Or.inl rfl) hs⟩
    · exact ⟨by simp [shown], fun hs => absurd (Or.inr ⟨r, rfl⟩) hs⟩
    · obtain ⟨a, b⟩ := key (wanted k r) rest [] (by omega)
      refine ⟨by simpa [shown] using a, fun hs => ?_⟩
      have : ¬ Stopped (.item x :: showFrom (wanted k r) xs rest) := by
        intro h'
        apply hs
        unfold Stopped at h' ⊢
        rw [List.getLast?_cons_cons]
        exact h'
      have := b this
      simpa [shown] using this

theorem showFrom_unlimited (xs : List Item) (inp : List (Nat × Nat)) : showFrom 0 xs inp = xs.map .item := by
  induction xs with
  | nil => rw [showFrom_nil]; rfl
  | cons x xs ih =>
    rcases showFrom_cons 0 x xs inp (by omega) with ⟨_, h⟩ | ⟨h, _⟩ | ⟨h, _⟩
    · rw [h, ih]; rfl
    · omega
    · omega

/-- Before the first prompt. -/
theorem showFrom_first (xs : List Item) : ∀ (m : Int) (inp : List (Nat × Nat)) (seg : List Item) (b : Option (Key × Nat)) (after : List Ev), 0 ≤ m →
    showFrom m xs inp = seg.map .item ++ .prompt b :: after →
    0 < m ∧ (seg ≠ [] → (height seg : Int) < m) ∧ ∃ x more, xs = seg ++ x :: more ∧ m ≤ height seg + x.2 := by
  induction xs with
  | nil =>
    intro m inp seg b after _ h
    rw [showFrom_nil] at h
    cases seg <;> cases h
  | cons x xs ih =>
    intro m inp seg b after h0 h
    have hpos : 0 < m := by
      rcases Int.lt_or_eq_of_le h0 with h1 | h1
      · exact h1
      · subst h1
        rw [showFrom_unlimited] at h
        have := congrArg (fun l => decide (Ev.prompt b ∈ l)) h
        simp at this
    refine ⟨hpos, ?_⟩
    rcases showFrom_cons m x xs inp h0 with ⟨h1, _⟩ | ⟨_, h1, h2⟩ | ⟨_, h1, h2⟩
    · omega
    · rw [h2] at h
      cases seg with
      | nil => cases h
      | cons y seg =>
        simp only [List.map_cons, List.cons_append, List.cons.injEq, Ev.item.injEq] at h
        obtain ⟨rfl, h⟩ := h
        obtain ⟨a, c, z, more, e, f⟩ := ih _ inp seg b after (by omega) h
        refine ⟨fun _ => ?_, z, more, by rw [e]; rfl, ?_⟩
        · simp only [height, List.map_cons, List.sum_cons] at *
          by_cases hs : seg = []
          · subst hs; simp; omega
          · have := c hs; omega
        · simp only [height, List.map_cons, List.sum_cons] at *; omega
    · cases seg with
      | cons y seg =>
        rcases h2 with h2 | ⟨r, h2⟩ | ⟨k, r, rest, _, _, _, h2⟩ <;> rw [h2] at h <;> cases h
      | nil => exact ⟨fun h => absurd rfl h, x, xs, rfl, by simp [height]; omega⟩

/-- After an answer. -/
theorem showFrom_after (xs : List Item) : ∀ (m : Int) (inp : List (Nat × Nat)) (a d : List Ev) (k : Key) (r : Nat), 0 ≤ m →
    showFrom m xs inp = a ++ .prompt (some (k, r)) :: d →
    (k = .stop ∧ d = []) ∨ ∃ x more rest, k ≠ .stop ∧ xs = shown a ++ x :: more ∧ d = .item x :: showFrom (wanted k r) more rest := by
  induction xs with
  | nil =>
    intro m inp a d k r _ h
    rw [showFrom_nil] at h
    cases a <;> cases h
  | cons x xs ih =>
    intro m inp a d k r h0 h
    have step : ∀ m' inp', 0 ≤ m' → ∀ a', Ev.item x :: showFrom m' xs inp' = a' ++ .prompt (some (k, r)) :: d →
        (k = .stop ∧ d = []) ∨ ∃ y more rest, k ≠ .stop ∧ x :: xs = shown a' ++ y :: more ∧ d = .item y :: showFrom (wanted k r) more rest := by
      intro m' inp' hm a' h'
      cases a' with
      | nil => cases h'
      | cons e a' =>
        simp only [List.cons_append, List.cons.injEq] at h'
        obtain ⟨rfl, h'⟩ := h'
        rcases ih m' inp' a' d k r hm h' with h1 | ⟨y, more, rest, h1, h2, h3⟩
        · exact .inl h1
        · exact .inr ⟨y, more, rest, h1, by simp [shown, h2], h3⟩
    rcases showFrom_cons m x xs inp h0 with ⟨_, h2⟩ | ⟨_, h1, h2⟩ | ⟨_, _, h2 | ⟨r', h2⟩ | ⟨k', r', rest, hk1, hk2, hk3, h2⟩⟩ <;> rw [h2] at h
    · exact step 0 inp (by omega) a h
    · exact step _ inp (by omega) a h
    · cases a with
      | nil => cases h
      | cons e a => cases a <;> cases h
    · cases a with
      | nil =>
        simp only [List.nil_append, List.cons.injEq, Ev.prompt.injEq, Option.some.injEq, Prod.mk.injEq] at h
        exact .inl ⟨h.1.1.symm, h.2.symm⟩
      | cons e a => cases a <;> cases h
    · cases a with
      | nil =>
        simp only [List.nil_append, List.cons.injEq, Ev.prompt.injEq, Option.some.injEq, Prod.mk.injEq] at h
        obtain ⟨⟨rfl, rfl⟩, rfl⟩ := h
        exact .inr ⟨x, xs, rest, hk1, rfl, rfl⟩
      | cons e a =>
        simp only [List.cons_append, List.cons.injEq] at h
        obtain ⟨rfl, h⟩ := h
        rcases step _ rest (by omega) a h with h1 | ⟨y, more, rest', h1, h3, h4⟩
        · exact .inl h1
        · exact .inr ⟨y, more, rest', h1, by simpa [shown] using h3, h4⟩

/-! The list of matches. -/

theorem internalPager_neg {k : Key} (hh : k ≠ .help ∧ k ≠ .other) {l : Int} (hl : 0 < l) : internalPager k l < 0 ↔ k = .stop := by
  cases k <;> simp_all [internalPager] <;> omega

theorem internalPager_le {k : Key} (hk : k ≠ .stop) (hh : k ≠ .help ∧ k ≠ .other) {l : Int} (hl : 0 < l) :
    0 ≤ internalPager k l ∧ internalPager k l < l := by
  cases k <;> simp_all [internalPager] <;> omega

theorem showRows_cons (p : Bool) (H : Nat) (l : Int) (x : Item) (xs : List Item) (inp : List (Nat × Nat)) (h0 : 0 ≤ l) :
    (¬ (p = true ∧ l > 0 ∧ l + x.2 ≥ H) ∧ showRows p H l (x :: xs) inp = .item x :: showRows p H (l + x.2) xs inp) ∨
    ((p = true ∧ l > 0 ∧ l + x.2 ≥ H) ∧ (showRows p H l (x :: xs) inp = [.prompt none] ∨ (∃ r, showRows p H l (x :: xs) inp = [.prompt (some (.stop, r))]) ∨
      ∃ k r rest, k ≠ .stop ∧ k ≠ .help ∧ k ≠ .other ∧
        showRows p H l (x :: xs) inp = .prompt (some (k, r)) :: .item x :: showRows p H (internalPager k l + x.2) xs rest)) := by
  by_cases h1 : p = true ∧ l > 0 ∧ l + x.2 ≥ H
  · right
    refine ⟨h1, ?_⟩
    have e : showRows p H l (x :: xs) inp = match ask yesNo inp with
        | none => [.prompt none]
        | some (k, rows, rest) =>
          .prompt (some (k, rows)) :: if internalPager k l < 0 then [] else .item x :: showRows p H (internalPager k l + x.2) xs rest := by
      rw [showRows, if_pos h1]
      cases ask yesNo inp <;> rfl
    rw [e]
    cases ha : ask yesNo inp with
    | none => exact .inl rfl
    | some q =>
      obtain ⟨k, r, rest⟩ := q
      have hh := ask_key ha
      right
      by_cases hk : k = .stop
      · left
        subst hk
        exact ⟨r, by simp [internalPager]⟩
      · right
        refine ⟨k, r, rest, hk, hh.1, hh.2, ?_⟩
        have : ¬ internalPager k l < 0 := fun h => hk ((internalPager_neg hh h1.2.1).1 h)
        simp [this]
  · left
    refine ⟨h1, ?_⟩
    rw [showRows, if_neg h1]

theorem showRows_nil (p : Bool) (H : Nat) (l : Int) (inp : List (Nat × Nat)) : showRows p H l [] inp = [] := by simp [showRows]

theorem showRows_order (p : Bool) (H : Nat) (xs : List Item) : ∀ (l : Int) (inp : List (Nat × Nat)), 0 ≤ l →
    shown (showRows p H l xs inp) <+: xs ∧ (¬ Stopped (showRows p H l xs inp) → shown (showRows p H l xs inp) = xs) := by
  induction xs with
  | nil => intro m inp _; rw [showRows_nil]; simp [shown]
  | cons x xs ih =>
    have key : ∀ (m : Int) (inp), 0 ≤ m → shown (.item x :: showRows p H m xs inp) <+: x :: xs ∧
        (¬ Stopped (.item x :: showRows p H m xs inp) → shown (.item x :: showRows p H m xs inp) = x :: xs) := by
      intro m inp hm
      obtain ⟨h1, h2⟩ := ih m inp hm
      constructor
      · simpa [shown] using h1
      · intro hs
        have : ¬ Stopped (showRows p H m xs inp) := by
          intro h
          apply hs
          unfold Stopped at h ⊢
          rw [List.getLast?_cons]
          cases hl : (showRows p H m xs inp).getLast? with
          | none => rw [hl] at h; simp at h
          | some e => rw [hl] at h; simpa using h
        simp [shown, h2 this]
    intro l inp h0
    rcases showRows_cons p H l x xs inp h0 with ⟨_, h⟩ | ⟨hl, h | ⟨r, h⟩ | ⟨k, r, rest, hk1, hk2, hk3, h⟩⟩ <;> rw [h]
    · exact key _ inp (by omega)
    · exact ⟨by simp [shown], fun hs => absurd (Or.inl rfl) hs⟩
    · exact ⟨by simp [shown], fun hs => absurd (Or.inr ⟨r, rfl⟩) hs⟩
    · have := (internalPager_le hk1 ⟨hk2, hk3⟩ hl.2.1).1
      obtain ⟨a, b⟩ := key (internalPager k l + x.2) rest (by omega)
      refine ⟨by simpa [shown] using a, fun hs => ?_⟩
      have : ¬ Stopped (.item x :: showRows p H (internalPager k l + x.2) xs rest) := by
        intro h'
        apply hs
        unfold Stopped at h' ⊢
        rw [List.getLast?_cons_cons]
        exact h'
      have := b this
      simpa [shown] using this

/-- Before the first prompt, from `l` lines: what has been shown is below the height, or it is one row. -/
theorem showRows_first (p : Bool) (H : Nat) (xs : List Item) : ∀ (l : Int) (inp : List (Nat × Nat)) (seg : List Item) (b : Option (Key × Nat)) (after : List Ev),
    0 ≤ l → showRows p H l xs inp = seg.map .item ++ .prompt b :: after →
    p = true ∧ (seg ≠ [] → l + height seg < H ∨ ∃ y z, l + height y = 0 ∧ seg = y ++ [z]) ∧ l + height seg > 0 ∧ ∃ x more, xs = seg ++ x :: more ∧ H ≤ l + height seg + x.2 := by
  induction xs with
  | nil =>
    intro l inp seg b after _ h
    rw [showRows_nil] at h
    cases seg <;> cases h
  | cons x xs ih =>
    intro l inp seg b after h0 h
    rcases showRows_cons p H l x xs inp h0 with ⟨h1, h2⟩ | ⟨h1, h2⟩
    · rw [h2] at h
      cases seg with
      | nil => cases h
      | cons y seg =>
        simp only [List.map_cons, List.cons_append, List.cons.injEq, Ev.item.injEq] at h
        obtain ⟨rfl, h⟩ := h
        obtain ⟨hp, c, hpos, z, more, e, f⟩ := ih _ inp seg b after (by omega) h
        refine ⟨hp, fun _ => ?_, ?_, z, more, by rw [e]; rfl, ?_⟩
        · by_cases hs : seg = []
          · subst hs
            by_cases hl : l = 0
            · exact .inr ⟨[], x, by simp [height, hl], rfl⟩
            · left
              have : ¬ l + x.2 ≥ H := fun hh => h1 ⟨hp, by omega, hh⟩
              simp [height]; omega
          · rcases c hs with c | ⟨u, v, c1, c2⟩
            · left; simp only [height, List.map_cons, List.sum_cons] at *; omega
            · right
              refine ⟨x :: u, v, ?_, by rw [c2]; rfl⟩
              simp only [height, List.map_cons, List.sum_cons] at *; omega
        · simp only [height, List.map_cons, List.sum_cons] at *; omega
        · simp only [height, List.map_cons, List.sum_cons] at *; omega
    · cases seg with
      | cons y seg =>
        rcases h2 with h2 | ⟨r, h2⟩ | ⟨k, r, rest, _, _, _, h2⟩ <;> rw [h2] at h <;> cases h
      | nil => exact ⟨h1.1, fun h => absurd rfl h, by simp [height]; omega, x, xs, rfl, by simp [height]; omega⟩

/-- After an answer: `l` lines were counted at the prompt. -/
theorem showRows_after (p : Bool) (H : Nat) (xs : List Item) : ∀ (l : Int) (inp : List (Nat × Nat)) (a d : List Ev) (k : Key) (r : Nat), 0 ≤ l →
    showRows p H l xs inp = a ++ .prompt (some (k, r)) :: d →
    (k = .stop ∧ d = []) ∨ ∃ x more rest, ∃ l' : Int, k ≠ .stop ∧ k ≠ .help ∧ k ≠ .other ∧ xs = shown a ++ x :: more ∧ 0 < l' ∧ l' + x.2 ≥ H ∧
      d = .item x :: showRows p H (internalPager k l' + x.2) more rest := by
  induction xs with
  | nil =>
    intro m inp a d k r _ h
    rw [showRows_nil] at h
    cases a <;> cases h
  | cons x xs ih =>
    intro l inp a d k r h0 h
    have step : ∀ m' inp', 0 ≤ m' → ∀ a', Ev.item x :: showRows p H m' xs inp' = a' ++ .prompt (some (k, r)) :: d →
        (k = .stop ∧ d = []) ∨ ∃ y more rest, ∃ l' : Int, k ≠ .stop ∧ k ≠ .help ∧ k ≠ .other ∧ x :: xs = shown a' ++ y :: more ∧ 0 < l' ∧ l' + y.2 ≥ H ∧
          d = .item y :: showRows p H (internalPager k l' + y.2) more rest := by
      intro m' inp' hm a' h'
      cases a' with
      | nil => cases h'
      | cons e a' =>
        simp only [List.cons_append, List.cons.injEq] at h'
        obtain ⟨rfl, h'⟩ := h'
        rcases ih m' inp' a' d k r hm h' with h1 | ⟨y, more, rest, l', h1, h2, h3, h4, h5⟩
        · exact .inl h1
        · exact .inr ⟨y, more, rest, l', h1, h2, h3, by simp [shown, h4], h5⟩
    rcases showRows_cons p H l x xs inp h0 with ⟨_, h2⟩ | ⟨hl, h2 | ⟨r', h2⟩ | ⟨k', r', rest, hk1, hk2, hk3, h2⟩⟩ <;> rw [h2] at h
    · exact step _ inp (by omega) a h
    · cases a with
      | nil => cases h
      | cons e a => cases a <;> cases h
    · cases a with
      | nil =>
        simp only [List.nil_append, List.cons.injEq, Ev.prompt.injEq, Option.some.injEq, Prod.mk.injEq] at h
        exact .inl ⟨h.1.1.symm, h.2.symm⟩
      | cons e a => cases a <;> cases h
    · have hle := (internalPager_le hk1 ⟨hk2, hk3⟩ hl.2.1).1
      cases a with
      | nil =>
        simp only [List.nil_append, List.cons.injEq, Ev.prompt.injEq, Option.some.injEq, Prod.mk.injEq] at h
        obtain ⟨⟨rfl, rfl⟩, rfl⟩ := h
        exact .inr ⟨x, xs, rest, l, hk1, hk2, hk3, rfl, hl.2.1, hl.2.2, rfl⟩
      | cons e a =>
        simp only [List.cons_append, List.cons.injEq] at h
        obtain ⟨rfl, h⟩ := h
        rcases step _ rest (by omega) a h with h1 | ⟨y, more, rest', l', h1, h3, h4, h5, h6⟩
        · exact .inl h1
        · exact .inr ⟨y, more, rest', l', h1, h3, h4, by simpa [shown] using h5, h6⟩

/-! The grid. -/

theorem columns_mem (count limit minor : Nat) (hm : 0 < minor) (j l : Nat) (y : Nat) :
    y ∈ columns count limit minor j l ↔ y < count ∧ ∃ i, j + i < limit ∧ y = l + i * minor := by
  fun_induction columns count limit minor j l with
  | case1 j l h1 h2 =>
    simp only [List.not_mem_nil, false_iff]
    rintro ⟨h, i, _, rfl⟩
    omega
  | case2 j l h1 h2 ih =>
    rw [List.mem_cons, ih]
    constructor
    · rintro (rfl | ⟨h, i, hi, rfl⟩)
      · exact ⟨by omega, 0, by omega, by omega⟩
      · exact ⟨h, i + 1, by omega, by rw [Nat.add_mul]; omega⟩
    · rintro ⟨h, i, hi, rfl⟩
      cases i with
      | zero => left; omega
      | succ i => exact .inr ⟨h, i, by omega, by rw [Nat.add_mul]; omega⟩
  | case3 j l h1 =>
    simp only [List.not_mem_nil, false_iff]
    rintro ⟨_, i, hi, _⟩
    omega

theorem columns_sorted (count limit minor : Nat) (hm : 0 < minor) (j l : Nat) : (columns count limit minor j l).Pairwise (· < ·) := by
  fun_induction columns count limit minor j l with
  | case1 => exact .nil
  | case2 j l h1 h2 ih =>
    refine List.pairwise_cons.2 ⟨fun y hy => ?_, ih⟩
    obtain ⟨_, i, _, rfl⟩ := (columns_mem count limit minor hm _ _ y).1 hy
    omega
  | case3 => exact .nil

theorem columns_length (count limit minor j l : Nat) : (columns count limit minor j l).length ≤ limit - j := by
  fun_induction columns count limit minor j l with
  | case1 => simp
  | case2 j l h1 h2 ih => simp only [List.length_cons]; omega
  | case3 => simp

theorem ceil_facts {count limit : Nat} (hl : 0 < limit) (i : Nat) :
    i < (count + (limit - 1)) / limit ↔ i * limit < count := by
  rw [Nat.lt_div_iff_mul_lt hl]
  omega

/-- The place of a match. -/
theorem place (count limit : Nat) (hl : 0 < limit) (h : Bool) (i y : Nat) (hi : i < (count + (limit - 1)) / limit) :
    y ∈ columns count limit (if h then 1 else (count + (limit - 1)) / limit) 0 (i * if h then limit else 1) ↔
      y < count ∧ i = if h then y / limit else y % ((count + (limit - 1)) / limit) := by
  have hr : 0 < (count + (limit - 1)) / limit := by omega
  rw [columns_mem _ _ _ (by cases h; exact hr; exact Nat.one_pos)]
  cases h with
  | true =>
    simp only [if_true, Nat.zero_add, Nat.mul_one]
    constructor
    · rintro ⟨h1, j, h2, rfl⟩
      refine ⟨h1, ?_⟩
      rw [Nat.mul_comm, Nat.mul_add_div hl, Nat.div_eq_of_lt h2]; rfl
    · rintro ⟨h1, rfl⟩
      exact ⟨h1, y % limit, Nat.mod_lt _ hl, by rw [Nat.mul_comm]; exact (Nat.div_add_mod y limit).symm⟩
  | false =>
    simp only [Bool.false_eq_true, if_false, Nat.zero_add, Nat.mul_one]
    constructor
    · rintro ⟨h1, j, h2, rfl⟩
      refine ⟨h1, ?_⟩
      rw [Nat.add_mul_mod_self_right, Nat.mod_eq_of_lt hi]
    · rintro ⟨h1, rfl⟩
      refine ⟨h1, y / ((count + (limit - 1)) / limit), ?_, ?_⟩
      · rw [Nat.div_lt_iff_lt_mul hr]
        have h3 : ¬ (count + (limit - 1)) / limit * limit < count := fun h => absurd ((ceil_facts (count := count) hl _).2 h) (Nat.lt_irrefl _)
        rw [Nat.mul_comm limit]
        omega
      · have := Nat.mod_add_div y ((count + (limit - 1)) / limit)
        rw [Nat.mul_comm] at this
        omega

theorem matchRows_perm (count limit : Nat) (hl : 0 < limit) (h : Bool) : (matchRows count limit h).flatten.Perm (List.range count) := by
  have hd : (matchRows count limit h).flatten.Nodup := by
    unfold matchRows
    rw [List.Nodup, List.pairwise_flatten]
    constructor
    · intro r hr
      simp only [List.mem_map, List.mem_range] at hr
      obtain ⟨i, hi, rfl⟩ := hr
      exact (columns_sorted _ _ _ (by cases h; exact Nat.lt_of_le_of_lt (Nat.zero_le i) hi; exact Nat.one_pos) _ _).imp (fun h => by omega)
    · rw [List.pairwise_map]
      refine (List.nodup_range (n := (count + (limit - 1)) / limit)).imp_of_mem ?_
      intro i j hi hj hij
      rintro y h1 z h2 rfl
      rw [List.mem_range] at hi hj
      have a := (place count limit hl h i y hi).1 h1
      have b := (place count limit hl h j y hj).1 h2
      exact hij (a.2.trans b.2.symm)
  rw [List.perm_ext_iff_of_nodup hd List.nodup_range]
  intro y
  rw [List.mem_flatten, List.mem_range]
  constructor
  · rintro ⟨r, hr, hy⟩
    simp only [matchRows, List.mem_map, List.mem_range] at hr
    obtain ⟨i, hi, rfl⟩ := hr
    exact ((place count limit hl h i y hi).1 hy).1
  · intro hy
    have hr : 0 < (count + (limit - 1)) / limit := (ceil_facts hl 0).2 (by omega)
    have hi : (if h then y / limit else y % ((count + (limit - 1)) / limit)) < (count + (limit - 1)) / limit := by
      cases h with
      | true =>
        simp only [if_true]
        rw [ceil_facts hl]
        have := Nat.div_mul_le_self y limit
        omega
      | false => simpa using Nat.mod_lt y hr
    exact ⟨_, List.mem_map.2 ⟨_, List.mem_range.2 hi, rfl⟩, (place count limit hl h _ y hi).2 ⟨hy, rfl⟩⟩

end Clink.Pager
