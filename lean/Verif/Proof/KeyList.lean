import Verif.Model.KeyList
import Verif.Spec.KeyList

/-! Proofs for C67. -/

namespace Clink.KeyList
open Spec

/-! Order -/

theorem strcmp_self (a : List Nat) : strcmp a a = 0 := by
  induction a with
  | nil => rfl
  | cons x a ih => simp [strcmp, ih]

theorem strcmp_flip (a b : List Nat) : strcmp b a = - strcmp a b := by
  induction a generalizing b with
  | nil => cases b <;> rfl
  | cons x a ih =>
    cases b with
    | nil => rfl
    | cons y b =>
      simp only [strcmp]
      by_cases h1 : x < y
      · simp [h1, Nat.lt_asymm h1]
      · by_cases h2 : y < x
        · simp [h1, h2]
        · simp [h1, h2, ih b]

theorem strcmp_trans (a b c : List Nat) (h1 : strcmp a b ≤ 0) (h2 : strcmp b c ≤ 0) : strcmp a c ≤ 0 := by
  induction a generalizing b c with
  | nil => cases c <;> simp [strcmp]
  | cons x a ih =>
    cases b with
    | nil => simp [strcmp] at h1
    | cons y b =>
      cases c with
      | nil => simp [strcmp] at h2
      | cons z c =>
        simp only [strcmp] at h1 h2 ⊢
        by_cases hxz : x < z
        · simp [hxz]
        · have hyx : ¬ y < x := by
            intro h
            have : ¬ x < y := by omega
            simp [h, this] at h1
          have hzy : ¬ z < y := by
            intro h
            have : ¬ y < z := by omega
            simp [h, this] at h2
          have e1 : x = y := by omega
          have e2 : y = z := by omega
          subst e1; subst e2
          simp only [Nat.lt_irrefl, if_false] at h1 h2 ⊢
          exact ih b c h1 h2

theorem strcmp_eq (a b : List Nat) : strcmp a b = 0 ↔ a = b := by
  induction a generalizing b with
  | nil => cases b <;> simp [strcmp]
  | cons x a ih =>
    cases b with
    | nil => simp [strcmp]
    | cons y b =>
      simp only [strcmp]
      by_cases h1 : x < y
      · simp [h1]; omega
      · by_cases h2 : y < x
        · simp [h1, h2]; omega
        · simp only [h1, h2, if_false, ih]
          have : x = y := by omega
          simp [this]

theorem consistent_strcmp {α : Type} (f : α → List Nat) : Consistent fun a b => strcmp (f a) (f b) :=
  ⟨fun a => strcmp_self _, fun a b => by rw [strcmp_flip (f a) (f b)]; omega, fun a b c => strcmp_trans _ _ _⟩

theorem consistent_sub {α : Type} (f : α → Int) : Consistent fun a b => f a - f b :=
  ⟨fun a => by omega, fun a b => by omega, fun a b c => by omega⟩

theorem consistent_orElse {α : Type} {f g : α → α → Int} (hf : Consistent f) (hg : Consistent g) : Consistent fun a b => orElse (f a b) (g a b) := by
  refine ⟨fun a => ?_, fun a b => ?_, fun a b c => ?_⟩
  · simp [orElse, hf.refl, hg.refl]
  · have h1 := hf.flip a b
    have h2 := hf.flip b a
    have h3 := hg.flip a b
    unfold orElse
    split <;> split <;> omega
  · have e := fun x y => hf.flip x y
    have t := fun x y z => hf.trans x y z
    have := e a b; have := e b a; have := e b c; have := e c b; have := e a c; have := e c a
    have := t a b c; have := t b c a; have := t c a b; have := t a c b; have := t c b a; have := t b a c
    have := hg.trans a b c
    unfold orElse
    intro h1 h2
    split at h1 <;> split at h2 <;> split <;> omega

theorem consistent_zero {α : Type} {f : α → α → Int} (h : ∀ a b, f a b = 0) : Consistent f :=
  ⟨fun a => h a a, fun a b => by rw [h, h], fun a b c _ _ => by rw [h]; omega⟩

/-! Duplicates -/

theorem slot_initial (es : List Entry) (spare i : Nat) (e : Entry) (h : es[i]? = some e) : (initial es spare).slots[i + 1]? = some (some (i + 1, e)) := by
  have hi : i < es.length := (List.getElem?_eq_some_iff.1 h).1
  unfold initial
  simp only [List.getElem?_cons_succ]
  rw [List.getElem?_append_left (by simpa using hi)]
  simp [h, Nat.add_comm]

theorem slot_spare (es : List Entry) (spare : Nat) : (initial es spare).slots[es.length + 1]? = if spare = 0 then none else some none := by
  unfold initial
  simp only [List.getElem?_cons_succ]
  rw [List.getElem?_append_right (by simp)]
  cases spare with
  | zero => simp
  | succ n => simp

/-- The state before entry `i`, if there was no duplicate yet. -/
def clean (es : List Entry) (spare i : Nat) : Dedup := { initial es spare with tortoise := i, num := i }

theorem read_clean (es : List Entry) (spare i k : Nat) (e : Entry) (h : es[i]? = some e) : readName (clean es spare k) (i + 1) = some (text e.name) := by
  unfold readName
  have : (clean es spare k).slots = (initial es spare).slots := rfl
  rw [this, slot_initial es spare i e h]
  have hf : (clean es spare k).freed = [] := rfl
  simp [hf]

theorem read_zero (es : List Entry) (spare k : Nat) : readName (clean es spare k) 0 = some [] := rfl

/-- No two neighbours have the same name. -/
def Distinct (es : List Entry) : Prop :=
  ∀ (i : Nat) a b, es[i]? = some a → es[i + 1]? = some b → text a.name = [] ∨ text a.name ≠ text b.name

theorem copy_same (d : Dedup) (h : Nat) (e : d.tortoise = h) : copy d h = some d := by
  unfold copy
  rw [if_pos e]

theorem step_clean (es : List Entry) (spare i : Nat) (b : Entry) (hb : es[i]? = some b)
    (hd : ∀ a, 0 < i → es[i - 1]? = some a → text a.name = [] ∨ text a.name ≠ text b.name) :
    dedupStep (clean es spare (i + 1)) (i + 1) = some (clean es spare (i + 2)) := by
  have he : equivalent (clean es spare (i + 1)) (i + 1) i = some false := by
    unfold equivalent
    rw [read_clean es spare i (i + 1) b hb]
    cases hn : text b.name with
    | nil => rfl
    | cons x l =>
      simp only
      cases i with
      | zero => rw [read_zero]
      | succ j =>
        have hj : j < es.length := by have := (List.getElem?_eq_some_iff.1 hb).1; omega
        have ha : es[j]? = some es[j] := List.getElem?_eq_some_iff.2 ⟨hj, rfl⟩
        rw [read_clean es spare j (j + 1 + 1) _ ha]
        rcases hd es[j] (by omega) ha with h | h
        · rw [h]
        · cases hm : text es[j].name with
          | nil => rfl
          | cons y m =>
            simp only [Option.some.injEq, decide_eq_false_iff_not]
            rw [strcmp_eq, ← hn, ← hm]
            exact fun e => h e.symm
  unfold dedupStep
  rw [Nat.add_sub_cancel, he]
  exact copy_same _ _ rfl

theorem loop_clean (es : List Entry) (spare : Nat) (n i : Nat) (h : i + n ≤ es.length)
    (hd : ∀ (j : Nat) a b, j + 1 < i + n → es[j]? = some a → es[j + 1]? = some b → text a.name = [] ∨ text a.name ≠ text b.name) (m : Nat) :
    dedupLoop (clean es spare (i + 1)) (i + 1) (n + m) = dedupLoop (clean es spare (i + n + 1)) (i + n + 1) m := by
  induction n generalizing i with
  | zero => simp
  | succ n ih =>
    have hi : i < es.length := by omega
    have hb : es[i]? = some es[i] := List.getElem?_eq_some_iff.2 ⟨hi, rfl⟩
    have hs := step_clean es spare i es[i] hb (fun a hp ha => hd (i - 1) a es[i] (by omega) ha (by rwa [Nat.sub_add_cancel hp]))
    rw [show n + 1 + m = (n + m) + 1 by omega, dedupLoop, hs]
    simp only [Option.bind_some]
    rw [ih (i + 1) (by omega) (fun j a b hj => hd j a b (by omega))]
    rw [show i + 1 + n = i + (n + 1) by omega]

theorem initial_clean (es : List Entry) (spare : Nat) : initial es spare = clean es spare 1 := rfl

theorem take_zip {α : Type} (l : List α) (n k : Nat) : (l.zipIdx n).take k = (l.take k).zipIdx n := by
  induction l generalizing n k with
  | nil => simp
  | cons x l ih =>
    cases k with
    | zero => rfl
    | succ k => simp [List.zipIdx_cons, ih]

theorem take_initial (es : List Entry) (spare k : Nat) (h : k ≤ es.length) :
    ((initial es spare).slots.take (k + 1)).drop 1 = ((es.take k).zipIdx 1).map fun p => some (p.2, p.1) := by
  unfold initial
  simp only [List.take_succ_cons, List.drop_succ_cons, List.drop_zero]
  rw [List.take_append_of_le_length (by simpa using h), ← List.map_take, take_zip]

/-! Rows -/

theorem filter_mod (R i : Nat) (hi : i < R) (n : Nat) :
    ∃ m, (List.range n).filter (fun x => x % R = i) = (List.range m).map (fun j => i + j * R) ∧ (m = 0 ∨ i + (m - 1) * R < n) ∧ n ≤ i + m * R := by
  induction n with
  | zero => exact ⟨0, by simp, .inl rfl, by omega⟩
  | succ n ih =>
    obtain ⟨m, h1, h2, h3⟩ := ih
    rw [List.range_succ, List.filter_append, h1]
    by_cases hn : n % R = i
    · have hq := Nat.div_add_mod n R
      rw [hn, Nat.mul_comm] at hq
      generalize n / R = k at hq
      have hle : k ≤ m := by
        have : k * R ≤ m * R := by omega
        exact Nat.le_of_mul_le_mul_right this (by omega)
      have hge : m ≤ k := by
        rcases h2 with rfl | h2
        · omega
        · have : (m - 1) * R < k * R := by omega
          have := Nat.lt_of_mul_lt_mul_right this
          omega
      have hm : n = i + m * R := by
        have : k = m := by omega
        subst this
        omega
      refine ⟨m + 1, ?_, .inr ?_, ?_⟩
      · rw [List.range_succ, List.map_append]
        simp [hn]
        exact hm
      · rw [Nat.add_sub_cancel]; omega
      · rw [Nat.add_mul]; omega
    · refine ⟨m, by simp [hn], by omega, ?_⟩
      have : n ≠ i + m * R := by
        rintro rfl
        apply hn
        rw [Nat.add_mul_mod_self_right, Nat.mod_eq_of_lt hi]
      omega

theorem filter_div (C i : Nat) (hC : 0 < C) (n : Nat) :
    (List.range n).filter (fun x => x / C = i) = (List.range (min (n - i * C) C)).map (fun j => i * C + j) := by
  induction n with
  | zero => simp
  | succ n ih =>
    rw [List.range_succ, List.filter_append, ih]
    have hiff : n / C = i ↔ i * C ≤ n ∧ n < i * C + C := by
      constructor
      · rintro rfl
        have h1 := Nat.div_add_mod n C
        have h2 := Nat.mod_lt n hC
        rw [Nat.mul_comm] at h1
        omega
      · rintro ⟨h1, h2⟩
        rw [Nat.div_eq_iff hC]
        omega
    by_cases hn : n / C = i
    · obtain ⟨h1, h2⟩ := hiff.1 hn
      have e1 : min (n - i * C) C = n - i * C := by omega
      have e2 : min (n + 1 - i * C) C = (n - i * C) + 1 := by omega
      rw [e1, e2, List.range_succ, List.map_append]
      simp only [List.filter_cons, hn, decide_true, if_true, List.filter_nil, List.map_cons, List.map_nil]
      congr 2
      omega
    · have : ¬ (i * C ≤ n ∧ n < i * C + C) := fun h => hn (hiff.2 h)
      have e : min (n + 1 - i * C) C = min (n - i * C) C := by omega
      rw [e]
      simp [hn]

theorem rowLoop_eq (v : Bool) (C b step : Nat) (n i sub k : Nat) (hs : sub = n - i * C) :
    rowLoop v C b step i sub k = (List.range k).map fun j => .row (b + if v then i + j else (i + j) * C) (min (n - (i + j) * C) C) step := by
  induction k generalizing i sub with
  | zero => rfl
  | succ k ih =>
    rw [rowLoop, ih (i + 1) _ (by rw [hs, Nat.add_mul]; omega), List.range_succ_eq_map, List.map_cons, List.map_map]
    congr 1
    · rw [hs]; rfl
    · apply List.map_congr_left
      intro j _
      simp only [Function.comp]
      rw [show i + 1 + j = i + (j + 1) by omega]

theorem rows_least (C n R : Nat) (hC : 0 < C) (h : IsRows C n R) : rowCount C n = R := by
  obtain ⟨h1, h2⟩ := h
  unfold rowCount
  have h3 := Nat.div_add_mod (n + (C - 1)) C
  have h4 := Nat.mod_lt (n + (C - 1)) hC
  rw [Nat.mul_comm] at h3
  have h5 : R ≤ (n + (C - 1)) / C := h2 _ (by omega)
  have h6 : (n + (C - 1)) / C ≤ R := by
    have : (n + (C - 1)) / C * C < R * C + C := by omega
    rw [show R * C + C = (R + 1) * C by rw [Nat.add_mul]; omega] at this
    have := Nat.lt_of_mul_lt_mul_right this
    omega
  omega

theorem isRows_bounds (C n R : Nat) (h : IsRows C n R) (hR : 0 < R) : n ≤ R * C ∧ (R - 1) * C < n := by
  refine ⟨h.1, ?_⟩
  apply Classical.byContradiction
  intro hc
  have := h.2 (R - 1) (by omega)
  omega

theorem group_shown (v : Bool) (C b n R : Nat) (hC : 0 < C) (h : IsRows C n R) :
    (groupRows v C b n).map shown = (List.range R).map fun i =>
      (List.range (min (n - i * C) C)).map fun j => b + (if v then i else i * C) + j * if v then R else 1 := by
  unfold groupRows
  rw [rows_least C n R hC h, rowLoop_eq v C b _ n 0 n R (by simp), List.map_map]
  apply List.map_congr_left
  intro i _
  simp [shown]

theorem mapped_eq (f : Nat → Nat) (a b : Nat) : (List.range a).map f = (List.range b).map f ↔ a = b := by
  constructor
  · intro h
    simpa using congrArg List.length h
  · rintro rfl; rfl

theorem down_eq (C b n R : Nat) (hC : 0 < C) (h : IsRows C n R) :
    (groupRows true C b n).map shown = (List.range R).map (fun i => (down R n i).map (b + ·)) ↔
      ∀ i < R, ∃ m, down R n i = (List.range m).map (fun j => i + j * R) ∧ m = min (n - i * C) C := by
  rw [group_shown true C b n R hC h, List.map_inj_left]
  constructor
  · intro hall i hi
    obtain ⟨m, h1, -, -⟩ := filter_mod R i hi n
    refine ⟨m, h1, ?_⟩
    have := hall i (List.mem_range.2 hi)
    unfold down at this
    rw [h1, List.map_map] at this
    have := congrArg List.length this
    simpa using this.symm
  · intro hall i hi
    obtain ⟨m, h1, h2⟩ := hall i (List.mem_range.1 hi)
    rw [h1, ← h2, List.map_map]
    apply List.map_congr_left
    intro j _
    simp [Function.comp, Nat.add_assoc]

/-- How many entries a row has. -/
theorem count_unique (R i n m m' : Nat) (hR : 0 < R) (h1 : m = 0 ∨ i + (m - 1) * R < n) (h2 : n ≤ i + m * R)
    (h3 : m' = 0 ∨ i + (m' - 1) * R < n) (h4 : n ≤ i + m' * R) : m = m' := by
  have key : ∀ a b, (a = 0 ∨ i + (a - 1) * R < n) → n ≤ i + b * R → a ≤ b := by
    intro a b h h'
    rcases h with rfl | h
    · omega
    · have : (a - 1) * R < b * R := by omega
      have := Nat.lt_of_mul_lt_mul_right this
      omega
  exact Nat.le_antisymm (key m m' h1 h4) (key m' m h3 h2)

/-! Macros -/

theorem textOf_append (p q : List (List Nat × Nat)) : textOf (p ++ q) = textOf p ++ textOf q := by simp [textOf]
theorem width_append (p q : List (List Nat × Nat)) : width (p ++ q) = width p + width q := by simp [width]

theorem macro_spec (limit limitE : Nat) (hE : limitE ≤ limit) (s : List Nat) (done : List (List Nat × Nat)) (trunc : Nat) (rest : List (List Nat × Nat))
    (hinv : done = [] ∨ ∃ p c q, done = p ++ c :: q ∧ trunc = (s ++ textOf p).length ∧ width p ≤ limitE ∧ (limitE < width p + c.2 ∨ width done ≤ limitE)) :
    ∃ d r t, macroLoop limit limitE (s ++ textOf done) (width done) trunc rest = (s ++ textOf d, width d, t) ∧ done ++ rest = d ++ r ∧
      (r = [] ∨ limit < width d) ∧
      (limit < width d → ∃ p c q, d = p ++ c :: q ∧ t = (s ++ textOf p).length ∧ width p ≤ limitE ∧ limitE < width p + c.2) := by
  induction rest generalizing done trunc with
  | nil =>
    refine ⟨done, [], trunc, rfl, rfl, .inl rfl, fun hw => ?_⟩
    rcases hinv with rfl | ⟨p, c, q, h1, h2, h3, h4⟩
    · simp [width] at hw
    · exact ⟨p, c, q, h1, h2, h3, by omega⟩
  | cons x rest ih =>
    obtain ⟨b, w⟩ := x
    rw [macroLoop]
    by_cases hgt : width done > limit
    · rw [if_pos hgt]
      have hne : ¬ width done ≤ limitE := by omega
      rw [if_neg hne]
      refine ⟨done, (b, w) :: rest, trunc, rfl, rfl, .inr hgt, fun _ => ?_⟩
      rcases hinv with rfl | ⟨p, c, q, h1, h2, h3, h4⟩
      · simp [width] at hgt
      · exact ⟨p, c, q, h1, h2, h3, by omega⟩
    · rw [if_neg hgt]
      have e1 : s ++ textOf done ++ b = s ++ textOf (done ++ [(b, w)]) := by simp [textOf]
      have e2 : width done + w = width (done ++ [(b, w)]) := by simp [width]
      rw [e1, e2]
      obtain ⟨d, r, t, h1, h2, h3, h4⟩ := ih (done ++ [(b, w)]) (if width done ≤ limitE then (s ++ textOf done).length else trunc) (by
        right
        by_cases hle : width done ≤ limitE
        · rw [if_pos hle]
          refine ⟨done, (b, w), [], rfl, rfl, hle, ?_⟩
          rw [← e2]
          simp only
          omega
        · rw [if_neg hle]
          rcases hinv with rfl | ⟨p, c, q, h1, h2, h3, h4⟩
          · simp [width] at hle
          · exact ⟨p, c, q ++ [(b, w)], by rw [h1]; simp, h2, h3, .inl (by omega)⟩)
      refine ⟨d, r, t, h1, ?_, h3, h4⟩
      rw [← h2]
      simp

end Clink.KeyList
