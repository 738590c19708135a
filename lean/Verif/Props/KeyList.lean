import Verif.Proof.KeyList

/-! C67: the list of key bindings has every binding once. -/

namespace Clink.KeyList
open Spec

/-! Order -/

/-- C67 (order): both functions for sorting define an order, as `qsort` needs it. -/
theorem C67_order : Consistent cmpSort ∧ Consistent cmpSortCat := by
  have h : Consistent cmpSort := by
    unfold cmpSort
    refine consistent_orElse (consistent_sub fun (e : Entry) => e.sort / 65536) ?_
    refine consistent_orElse (consistent_sub fun (e : Entry) => short e.sort) ?_
    refine consistent_orElse (consistent_strcmp fun (e : Entry) => (text e.name).map lower) ?_
    refine consistent_orElse (consistent_strcmp fun (e : Entry) => text e.name) ?_
    refine consistent_orElse (consistent_sub fun (e : Entry) => isNull e.func) ?_
    exact consistent_zero fun a b => by unfold orElse strcmpi; simp [strcmp_self]
  exact ⟨h, consistent_orElse (consistent_sub fun (e : Entry) => e.cat) h⟩

/-- C67 (order): the modifier keys come first, then the order of named keys, then the name; entries that count as equal have the same
key. -/
theorem C67_order_keys (a b : Entry) :
    (a.sort / 65536 < b.sort / 65536 → cmpSort a b < 0) ∧
    (a.sort / 65536 = b.sort / 65536 → short a.sort < short b.sort → cmpSort a b < 0) ∧
    (cmpSort a b = 0 → a.sort / 65536 = b.sort / 65536 ∧ short a.sort = short b.sort ∧ text a.name = text b.name ∧ a.func.isSome = b.func.isSome) := by
  refine ⟨fun h => ?_, fun h1 h2 => ?_, fun h => ?_⟩
  · unfold cmpSort orElse
    rw [if_pos (by omega)]
    omega
  · unfold cmpSort
    rw [orElse, if_neg (by omega), orElse, if_pos (by omega)]
    omega
  · unfold cmpSort at h
    have key : ∀ x y, orElse x y = 0 → x = 0 ∧ y = 0 := by
      intro x y h
      unfold orElse at h
      split at h
      · rename_i hx; exact absurd h hx
      · rename_i hx; exact ⟨by omega, h⟩
    obtain ⟨h1, h⟩ := key _ _ h
    obtain ⟨h2, h⟩ := key _ _ h
    obtain ⟨-, h⟩ := key _ _ h
    obtain ⟨h4, h⟩ := key _ _ h
    obtain ⟨h5, -⟩ := key _ _ h
    refine ⟨by omega, by omega, (strcmp_eq _ _).1 h4, ?_⟩
    unfold isNull at h5
    cases ha : a.func <;> cases hb : b.func <;> simp [ha, hb] at h5 ⊢

def str (s : String) : List Nat := s.toList.map Char.toNat
def entry (name func : String) : Entry := ⟨0, some (str name), none, some (str func), 0⟩

/-- Disagreement: entries are finally to be sorted by function name, but a name is compared with itself: different functions for the same
key are equal, and their order is up to `qsort`. -/
theorem C67_order_violated : (∀ (e : Entry) f g, cmpSort { e with func := some f } { e with func := some g } = 0) ∧
    entry "C-a" "beginning-of-line" ≠ entry "C-a" "accept-line" := by
  refine ⟨fun e f g => ?_, by decide +kernel⟩
  have key : ∀ x : Int, orElse 0 x = x := fun x => by simp [orElse]
  unfold cmpSort
  simp only [Int.sub_self, key, strcmp_self, strcmpi, isNull, Option.isNone_some]

/-! Duplicates -/

/-- C67 (duplicates): if no two neighbours have the same key, removing duplicates changes nothing. -/
theorem C67_no_duplicates (es : List Entry) (spare : Nat)
    (hd : ∀ (i : Nat) a b, es[i]? = some a → es[i + 1]? = some b → text a.name = [] ∨ text a.name ≠ text b.name) :
    dedup es spare = some ((es.zipIdx 1).map fun p => some (p.2, p.1)) := by
  unfold dedup
  have := loop_clean es spare es.length 0 (by omega) (fun j a b _ => hd j a b) 0
  simp only [Nat.zero_add, Nat.add_zero] at this
  rw [← initial_clean] at this
  rw [this, dedupLoop]
  have ht := take_initial es spare es.length (Nat.le_refl _)
  rw [List.take_length] at ht
  show some _ = some _
  rw [← ht]
  rfl

/-- Disagreement: after the first duplicate (`x'` has the same key as `x`) the next entry `y`, a different one, is lost.  When
there is no room for one entry more, memory beyond the array is read; and when there is a further entry `z`, a text that was
freed is read.  So no list with a duplicate that two more entries follow is shown correctly. -/
theorem C67_duplicates_violated (pre : List Entry) (x x' y : Entry) (spare : Nat)
    (hd : ∀ (i : Nat) a b, (pre ++ [x])[i]? = some a → (pre ++ [x])[i + 1]? = some b → text a.name = [] ∨ text a.name ≠ text b.name)
    (hx : text x.name = text x'.name) (hne : text x.name ≠ []) (hy : text y.name ≠ []) :
    dedup (pre ++ x :: x' :: y :: []) (spare + 1) = some (((pre ++ [x]).zipIdx 1).map fun p => some (p.2, p.1)) ∧
    dedup (pre ++ x :: x' :: y :: []) 0 = none ∧
    ∀ z rest, text z.name ≠ [] → dedup (pre ++ x :: x' :: y :: z :: rest) spare = none := by
  have main : ∀ (rest : List Entry) (spare : Nat),
      ∃ d, dedupLoop (initial (pre ++ x :: x' :: y :: rest) spare) 1 (pre.length + 1 + (rest.length + 2)) =
          ((copy d (pre.length + 4)).bind fun d => dedupLoop d (pre.length + 4) rest.length) ∧
        d.tortoise = pre.length + 2 ∧ d.num = pre.length + 2 ∧ pre.length + 3 ∈ d.freed ∧ (∀ k ∈ d.freed, k < pre.length + 4) ∧
        d.slots.take (pre.length + 2) = (initial (pre ++ x :: x' :: y :: rest) spare).slots.take (pre.length + 2) ∧
        ∀ k, k ≠ pre.length + 2 → d.slots[k]? = (initial (pre ++ x :: x' :: y :: rest) spare).slots[k]? := by
    intro rest spare
    have g : ∀ (i : Nat), i ≤ pre.length → (pre ++ x :: x' :: y :: rest)[i]? = (pre ++ [x])[i]? := by
      intro i hi
      by_cases h : i < pre.length
      · rw [List.getElem?_append_left h, List.getElem?_append_left h]
      · have : i = pre.length := by omega
        subst this
        simp
    have g1 : (pre ++ x :: x' :: y :: rest)[pre.length]? = some x := by simp
    have g2 : (pre ++ x :: x' :: y :: rest)[pre.length + 1]? = some x' := by simp
    have g3 : (pre ++ x :: x' :: y :: rest)[pre.length + 2]? = some y := by simp
    generalize hes : pre ++ x :: x' :: y :: rest = es at *
    have hlen : es.length = pre.length + 3 + rest.length := by rw [← hes]; simp; omega
    have hl := loop_clean es spare (pre.length + 1) 0 (by omega) (fun j a b hj ha hb => by
      rw [g j (by omega)] at ha
      rw [g (j + 1) (by omega)] at hb
      exact hd j a b ha hb) (rest.length + 2)
    rw [Nat.zero_add, Nat.zero_add] at hl
    rw [initial_clean, hl]
    -- the duplicate
    have hslots : (clean es spare (pre.length + 1 + 1)).slots = (initial es spare).slots := rfl
    have hfreed : (clean es spare (pre.length + 1 + 1)).freed = [] := rfl
    have htort : (clean es spare (pre.length + 1 + 1)).tortoise = pre.length + 2 := rfl
    have s1 := slot_initial es spare _ x' g2
    have s2 := slot_initial es spare _ y g3
    have hlt : pre.length + 2 < (initial es spare).slots.length := (List.getElem?_eq_some_iff.1 s1).1
    have e1 : equivalent (clean es spare (pre.length + 1 + 1)) (pre.length + 1 + 1) (pre.length + 1) = some true := by
      unfold equivalent
      rw [read_clean es spare _ _ x' g2, read_clean es spare _ _ x g1, ← hx]
      cases hn : text x.name with
      | nil => exact absurd hn hne
      | cons c l => simp [strcmp_self]
    have step1 : dedupStep (clean es spare (pre.length + 1 + 1)) (pre.length + 1 + 1) =
        some ⟨(initial es spare).slots.set (pre.length + 2) (some (pre.length + 3, y)), [pre.length + 2], pre.length + 2, pre.length + 2⟩ := by
      unfold dedupStep
      rw [Nat.add_sub_cancel, e1]
      simp only
      unfold freeTortoise
      rw [hslots, htort, s1, hfreed]
      simp only [List.not_mem_nil, if_false, Option.bind_some]
      unfold copy
      simp only [hslots, htort]
      have hC : ¬ (pre.length + 2 = pre.length + 1 + 1 + 1) := by omega
      rw [if_neg hC, s2]
      rfl
    generalize hd1 : (⟨(initial es spare).slots.set (pre.length + 2) (some (pre.length + 3, y)), [pre.length + 2], pre.length + 2, pre.length + 2⟩ : Dedup) = d1 at step1
    have t1 : d1.slots = (initial es spare).slots.set (pre.length + 2) (some (pre.length + 3, y)) := by rw [← hd1]
    have t2 : d1.freed = [pre.length + 2] := by rw [← hd1]
    have t3 : d1.tortoise = pre.length + 2 := by rw [← hd1]
    have t4 : d1.num = pre.length + 2 := by rw [← hd1]
    have u1 : d1.slots[pre.length + 2]? = some (some (pre.length + 3, y)) := by
      rw [t1, List.getElem?_set_self hlt]
    have u2 : d1.slots[pre.length + 3]? = some (some (pre.length + 3, y)) := by
      rw [t1, List.getElem?_set_ne (by omega)]
      exact s2
    have r1 : readName d1 (pre.length + 3) = some (text y.name) := by
      unfold readName
      rw [u2]
      simp [t2]
    have r2 : readName d1 (pre.length + 2) = some (text y.name) := by
      unfold readName
      rw [u1]
      simp [t2]
    have e2 : equivalent d1 (pre.length + 3) (pre.length + 2) = some true := by
      unfold equivalent
      rw [r1, r2]
      cases hn : text y.name with
      | nil => exact absurd hn hy
      | cons c l => simp [strcmp_self]
    have step2 : dedupStep d1 (pre.length + 3) = copy { d1 with freed := [pre.length + 3, pre.length + 2] } (pre.length + 4) := by
      unfold dedupStep
      rw [show pre.length + 3 - 1 = pre.length + 2 by omega, e2]
      simp only
      unfold freeTortoise
      rw [t3, u1, t2]
      simp
    refine ⟨{ d1 with freed := [pre.length + 3, pre.length + 2] }, ?_, t3, t4, by simp, ?_, ?_, ?_⟩
    · rw [dedupLoop, step1]
      simp only [Option.bind_some]
      rw [dedupLoop, step2]
    · intro k hk
      simp only [List.mem_cons, List.not_mem_nil, or_false] at hk
      omega
    · show d1.slots.take (pre.length + 2) = _
      rw [t1, List.take_set, List.set_eq_of_length_le (by simp; omega)]
      rfl
    · intro k hk
      show d1.slots[k]? = _
      rw [t1, List.getElem?_set_ne (by omega)]
      rfl
  have hlen : ∀ rest : List Entry, (pre ++ x :: x' :: y :: rest).length = pre.length + 1 + (rest.length + 2) := fun rest => by simp; omega
  refine ⟨?_, ?_, fun z rest hz => ?_⟩
  · obtain ⟨d, h1, h2, h3, -, -, h5, h6⟩ := main [] (spare + 1)
    unfold dedup
    rw [hlen, h1]
    have hs := slot_spare (pre ++ x :: x' :: y :: []) (spare + 1)
    rw [hlen, show pre.length + 1 + (([] : List Entry).length + 2) + 1 = pre.length + 4 by simp, if_neg (by omega)] at hs
    unfold copy
    rw [if_neg (by omega), h6 _ (by omega), hs]
    simp only [Option.bind_some, List.length_nil, dedupLoop, Option.map_some, h2, h3]
    rw [List.take_set, List.set_eq_of_length_le (by simp; omega), h5]
    have ht := take_initial (pre ++ x :: x' :: y :: []) (spare + 1) (pre.length + 1) (by simp)
    rw [ht]
    congr 3
    rw [List.take_append]
    simp [List.take_of_length_le]
  · obtain ⟨d, h1, h2, h3, -, -, h5, h6⟩ := main [] 0
    unfold dedup
    rw [hlen, h1]
    have hs := slot_spare (pre ++ x :: x' :: y :: []) 0
    rw [hlen, show pre.length + 1 + (([] : List Entry).length + 2) + 1 = pre.length + 4 by simp, if_pos rfl] at hs
    unfold copy
    rw [if_neg (by omega), h6 _ (by omega), hs]
    rfl
  · obtain ⟨d, h1, h2, h3, h4, h4', h5, h6⟩ := main (z :: rest) spare
    have g4 : (pre ++ x :: x' :: y :: z :: rest)[pre.length + 3]? = some z := by simp
    have g3 : (pre ++ x :: x' :: y :: z :: rest)[pre.length + 2]? = some y := by simp
    have s3 := slot_initial _ spare _ z g4
    have s2 := slot_initial _ spare _ y g3
    unfold dedup
    rw [hlen, h1]
    unfold copy
    rw [if_neg (by omega), h6 _ (by omega), s3]
    simp only [Option.bind_some, List.length_cons]
    have hnone : ∀ d' : Dedup, d'.freed = d.freed → d'.slots[pre.length + 4]? = some (some (pre.length + 3 + 1, z)) →
        d'.slots[pre.length + 3]? = some (some (pre.length + 2 + 1, y)) → dedupStep d' (pre.length + 4) = none := by
      intro d' k1 k2 k3
      have hz' : ¬ (pre.length + 3 + 1 ∈ d.freed) := fun h => by have := h4' _ h; omega
      unfold dedupStep equivalent readName
      rw [show pre.length + 4 - 1 = pre.length + 3 by omega, k2, k3, k1]
      simp only [hz', if_false, h4, if_true]
    rw [dedupLoop, hnone]
    · rfl
    · rfl
    · show (d.slots.set d.tortoise _)[pre.length + 4]? = _
      rw [h2, List.getElem?_set_ne (by omega), h6 _ (by omega)]
      exact s3
    · show (d.slots.set d.tortoise _)[pre.length + 3]? = _
      rw [h2, List.getElem?_set_ne (by omega), h6 _ (by omega)]
      exact s2

/-! Rows -/

/-- C67 (along the rows): with the setting for horizontal order, row `i` has the entries of the category that belong there, for any
number of columns; there are no more rows than necessary. -/
theorem C67_along (C b n R : Nat) (hC : 0 < C) (h : IsRows C n R) :
    (groupRows false C b n).map shown = (List.range R).map fun i => (along C n i).map (b + ·) := by
  rw [group_shown false C b n R hC h]
  apply List.map_congr_left
  intro i _
  unfold along
  rw [filter_div C i hC n, List.map_map]
  apply List.map_congr_left
  intro j _
  simp [Function.comp, Nat.add_assoc]

/-- C67 (down the columns): otherwise, row `i` has the entries that belong there exactly if there is one row, or at most one place
is empty. -/
theorem C67_down (C b n R : Nat) (hC : 0 < C) (hn : 0 < n) (h : IsRows C n R) :
    (groupRows true C b n).map shown = ((List.range R).map fun i => (down R n i).map (b + ·)) ↔ R = 1 ∨ R * C ≤ n + 1 := by
  have hR : 0 < R := by
    rcases Nat.eq_zero_or_pos R with rfl | h'
    · have := h.1; omega
    · exact h'
  obtain ⟨b1, b2⟩ := isRows_bounds C n R h hR
  rw [down_eq C b n R hC h]
  obtain ⟨R, rfl⟩ : ∃ r, R = r + 1 := ⟨R - 1, by omega⟩
  rw [Nat.add_sub_cancel] at b2
  have eRC : (R + 1) * C = R * C + C := by rw [Nat.add_mul]; omega
  constructor
  · intro hall
    by_cases h1 : R = 0
    · exact .inl (by omega)
    · right
      obtain ⟨m, e1, e2⟩ := hall (R - 1) (by omega)
      obtain ⟨m', f1, f2, f3⟩ := filter_mod (R + 1) (R - 1) (by omega) n
      unfold down at e1
      rw [f1, mapped_eq] at e1
      subst e1
      have hcount : m' = C := by
        have : (R - 1) * C + C = R * C := by
          have : (R - 1 + 1) * C = R * C := by rw [Nat.sub_add_cancel (by omega)]
          rw [Nat.add_mul] at this
          omega
        omega
      subst hcount
      rcases f2 with f2 | f2
      · omega
      · have e : (m' - 1) * (R + 1) + (R + 1) = (R + 1) * m' := by
          have : (m' - 1 + 1) * (R + 1) = m' * (R + 1) := by rw [Nat.sub_add_cancel (by omega)]
          rw [Nat.add_mul] at this
          rw [Nat.mul_comm (R + 1) m']
          omega
        omega
  · intro hor i hi
    obtain ⟨m, f1, f2, f3⟩ := filter_mod (R + 1) i hi n
    refine ⟨m, f1, ?_⟩
    refine count_unique (R + 1) i n _ _ (by omega) f2 f3 ?_ ?_
    · -- entries of the row are there
      have eC : (C - 1) * (R + 1) + (R + 1) = (R + 1) * C := by
        have : (C - 1 + 1) * (R + 1) = C * (R + 1) := by rw [Nat.sub_add_cancel (by omega)]
        rw [Nat.add_mul] at this
        rw [Nat.mul_comm (R + 1) C]
        omega
      rcases hor with h1 | h1
      · have : R = 0 := by omega
        subst this
        have : i = 0 := by omega
        subst this
        simp only [Nat.zero_mul, Nat.zero_add, Nat.mul_one, Nat.one_mul] at *
        omega
      · by_cases hi' : i = R
        · subst hi'
          have hle : n - i * C ≤ C := by omega
          rw [Nat.min_eq_left hle]
          by_cases hz : n - i * C = 0
          · exact .inl hz
          · right
            by_cases hfull : n - i * C = C
            · rw [hfull]; omega
            · have hc1 : n - i * C = C - 1 := by omega
              rw [hc1]
              have : (C - 1 - 1) * (i + 1) ≤ (C - 1) * (i + 1) - (i + 1) := by
                rw [Nat.sub_mul (C - 1) 1, Nat.one_mul]
                omega
              have : i + 1 ≤ (C - 1) * (i + 1) := Nat.le_mul_of_pos_left _ (by omega)
              omega
        · have : n - i * C ≥ C := by
            have h2 : (i + 1) * C ≤ R * C := Nat.mul_le_mul_right C (by omega)
            rw [Nat.add_mul] at h2
            omega
          rw [Nat.min_eq_right this]
          right
          omega
    · rcases hor with h1 | h1
      · have : R = 0 := by omega
        subst this
        have : i = 0 := by omega
        subst this
        simp only [Nat.zero_mul, Nat.zero_add, Nat.mul_one, Nat.one_mul] at *
        omega
      · by_cases hi' : i = R
        · subst hi'
          have hle : n - i * C ≤ C := by omega
          rw [Nat.min_eq_left hle]
          by_cases hfull : n - i * C = C
          · rw [hfull, Nat.mul_comm C]; omega
          · have hc1 : n - i * C = C - 1 := by omega
            rw [hc1, Nat.sub_mul, Nat.one_mul, Nat.mul_comm C]
            omega
        · have : n - i * C ≥ C := by
            have h2 : (i + 1) * C ≤ R * C := Nat.mul_le_mul_right C (by omega)
            rw [Nat.add_mul] at h2
            omega
          rw [Nat.min_eq_right this, Nat.mul_comm C]
          omega

/-- Disagreement: down the columns with two or more empty places (and more than one row), an entry after the category is shown (it is
of the next category, or after the last one it does not exist), and an entry of the category is not shown at all. -/
theorem C67_down_violated (C b n R : Nat) (hC : 0 < C) (h : IsRows C n R) (hR : 2 ≤ R) (he : n + 2 ≤ R * C) :
    (∃ x ∈ (groupRows true C b n).flatMap shown, b + n ≤ x) ∧ ∃ x, b ≤ x ∧ x < b + n ∧ x ∉ (groupRows true C b n).flatMap shown := by
  obtain ⟨b1, b2⟩ := isRows_bounds C n R h (by omega)
  have hmem : ∀ x, x ∈ (groupRows true C b n).flatMap shown ↔ ∃ i < R, ∃ j < min (n - i * C) C, b + i + j * R = x := by
    intro x
    rw [List.flatMap_def, group_shown true C b n R hC h]
    simp only [if_true, List.mem_flatten, List.mem_map, List.mem_range]
    constructor
    · rintro ⟨l, ⟨i, hi, rfl⟩, hx⟩
      obtain ⟨j, hj, e⟩ := List.mem_map.1 hx
      exact ⟨i, hi, j, List.mem_range.1 hj, e⟩
    · rintro ⟨i, hi, j, hj, e⟩
      exact ⟨_, ⟨i, hi, rfl⟩, List.mem_map.2 ⟨j, List.mem_range.2 hj, e⟩⟩
  obtain ⟨R, rfl⟩ : ∃ r, R = r + 2 := ⟨R - 2, by omega⟩
  have e0 : R + 2 - 1 = R + 1 := by omega
  rw [e0] at b2
  have e1 : (R + 1) * C = R * C + C := by rw [Nat.add_mul]; omega
  have e2 : (R + 2) * C = R * C + C + C := by rw [Nat.add_mul]; omega
  constructor
  · refine ⟨b + R + (C - 1) * (R + 2), (hmem _).2 ⟨R, by omega, C - 1, by omega, rfl⟩, ?_⟩
    have : (C - 1) * (R + 2) = C * (R + 2) - (R + 2) := by rw [Nat.sub_mul, Nat.one_mul]
    have h3 : R + 2 ≤ C * (R + 2) := Nat.le_mul_of_pos_left _ hC
    rw [Nat.mul_comm (R + 2) C] at he
    omega
  · refine ⟨b + (R + 1) + (n - (R + 1) * C) * (R + 2), by omega, ?_, ?_⟩
    · have h4 : n - (R + 1) * C + 2 ≤ C := by omega
      have h5 : (n - (R + 1) * C) * (R + 2) + (R + 1) < n := by
        generalize hk : n - (R + 1) * C = k at *
        obtain ⟨d, rfl⟩ : ∃ d, C = k + 2 + d := ⟨C - (k + 2), by omega⟩
        have hnn : n = (R + 1) * (k + 2 + d) + k := by omega
        have x1 : k * (R + 2) = R * k + k + k := by rw [Nat.mul_add, Nat.mul_comm k R]; omega
        have x2 : (R + 1) * (k + 2 + d) = R * k + R * 2 + R * d + (k + 2 + d) := by rw [Nat.add_mul, Nat.mul_add, Nat.mul_add]; omega
        omega
      omega
    · intro hx
      obtain ⟨i, hi, j, hj, hij⟩ := (hmem _).1 hx
      have hmod := congrArg (· % (R + 2)) (show i + j * (R + 2) = (R + 1) + (n - (R + 1) * C) * (R + 2) by omega)
      simp only [Nat.add_mul_mod_self_right] at hmod
      rw [Nat.mod_eq_of_lt hi, Nat.mod_eq_of_lt (by omega)] at hmod
      subst hmod
      have : j * (R + 2) = (n - (R + 1) * C) * (R + 2) := by omega
      have := Nat.eq_of_mul_eq_mul_right (by omega) this
      omega

/-- The lines for categories with their numbers of entries: for each a heading, with an empty line before except for the first. -/
def expected (vertical : Bool) (C : Nat) : Bool → Nat → List (Int × Nat) → List Line
  | _, _, [] => []
  | first, b, (c, n) :: gs => (if first then [] else [.blank]) ++ .heading c :: (groupRows vertical C b n ++ expected vertical C false (b + n) gs)

theorem loop_same (v : Bool) (C : Nat) (ls : List Line) (cat : Int) (b k n : Nat) (cs : List Int) :
    linesLoop v true C ls cat b k (List.replicate n cat ++ cs) = linesLoop v true C ls cat b (k + n) cs := by
  induction n generalizing k with
  | zero => rfl
  | succ n ih =>
    rw [List.replicate_succ, List.cons_append, linesLoop]
    simp only [if_true, ne_eq, not_true_eq_false, if_false]
    rw [ih, Nat.add_right_comm, Nat.add_assoc]

theorem group_eq (v : Bool) (C : Nat) (ls : List Line) (cat : Int) (b n : Nat) (hn : 0 < n) :
    groupLines v true C cat ls b n = ls ++ ((if decide (ls = []) = true then [] else [.blank]) ++ .heading cat :: groupRows v C b n) := by
  unfold groupLines
  rw [if_neg (by omega)]
  by_cases hls : ls = [] <;> simp [hls]

theorem loop_groups (v : Bool) (C : Nat) (gs : List (Int × Nat)) (ls : List Line) (cat : Int) (b n : Nat) (hcat : cat ≠ -2) (hn : 0 < n)
    (hg : ∀ g ∈ gs, 0 ≤ g.1 ∧ 0 < g.2) (hp : ((cat, n) :: gs).Pairwise fun g h => g.1 ≠ h.1) :
    linesLoop v true C ls cat b (b + n) (gs.flatMap fun g => List.replicate g.2 g.1) =
      ls ++ expected v C (decide (ls = [])) b ((cat, n) :: gs) := by
  induction gs generalizing ls cat b n with
  | nil =>
    simp only [List.flatMap_nil, linesLoop]
    rw [if_pos (Ne.symm hcat), Nat.add_sub_cancel_left, group_eq v C ls cat b n hn]
    simp [expected]
  | cons g gs ih =>
    obtain ⟨c, m⟩ := g
    obtain ⟨g1, g2⟩ := hg (c, m) (by simp)
    obtain ⟨p1, p2⟩ := List.pairwise_cons.1 hp
    have hne : c ≠ cat := fun e => p1 (c, m) (by simp) e.symm
    obtain ⟨m, rfl⟩ : ∃ k, m = k + 1 := ⟨m - 1, by simp at g2; omega⟩
    simp only [List.flatMap_cons, List.replicate_succ, List.cons_append]
    rw [linesLoop]
    simp only [if_true]
    rw [if_pos hne, loop_same, Nat.add_sub_cancel_left, show b + n + 1 + m = (b + n) + (m + 1) by omega]
    have hgl := group_eq v C ls cat b n hn
    have hnil : groupLines v true C cat ls b n ≠ [] := by rw [hgl]; simp
    rw [ih (groupLines v true C cat ls b n) c (b + n) (m + 1) (by simp at g1; omega) (by omega) (fun g hg' => hg g (by simp [hg'])) p2]
    rw [decide_eq_false hnil, hgl]
    conv => rhs; rw [expected]
    simp

/-- C67 (categories): entries that are sorted by category are shown in rows of their category only, below its heading. -/
theorem C67_categories (v : Bool) (C : Nat) (gs : List (Int × Nat)) (hg : ∀ g ∈ gs, 0 ≤ g.1 ∧ 0 < g.2) (hp : gs.Pairwise fun g h => g.1 ≠ h.1) :
    lines v true C (gs.flatMap fun g => List.replicate g.2 g.1) = expected v C true 1 gs := by
  unfold lines
  cases gs with
  | nil => rfl
  | cons g gs =>
    obtain ⟨c, m⟩ := g
    obtain ⟨g1, g2⟩ := hg (c, m) (by simp)
    obtain ⟨m, rfl⟩ : ∃ k, m = k + 1 := ⟨m - 1, by simp at g2; omega⟩
    have hne : c ≠ -1 := by simp at g1; omega
    simp only [List.flatMap_cons, List.replicate_succ, List.cons_append]
    rw [linesLoop]
    simp only [if_true]
    rw [if_pos hne, loop_same]
    have hgl : groupLines v true C (-1) [] 1 (1 - 1) = [] := rfl
    rw [hgl, show 1 + 1 + m = 1 + (m + 1) by omega, loop_groups v C gs [] c 1 (m + 1) (by simp at g1; omega) (by omega) (fun g hg' => hg g (by simp [hg'])) hp]
    rfl

/-- C67 (no categories): the rows are of all entries. -/
theorem C67_plain (v : Bool) (C : Nat) (cats : List Int) (h : cats ≠ []) : lines v false C cats = groupRows v C 1 cats.length := by
  have key : ∀ (cs : List Int) k, linesLoop v false C [] (-1) 1 k cs = groupLines v false C (-1) [] 1 (k + cs.length - 1) := by
    intro cs
    induction cs with
    | nil => intro k; rfl
    | cons c cs ih =>
      intro k
      rw [linesLoop]
      simp only [Bool.false_eq_true, if_false, ne_eq, not_true_eq_false]
      rw [ih, List.length_cons, Nat.add_assoc, Nat.add_comm 1]
  unfold lines
  rw [key]
  unfold groupLines
  have : 0 < cats.length := List.length_pos_iff.2 h
  rw [if_neg (by omega), Nat.add_sub_cancel_left]
  simp

/-! Macros -/

/-- C67 (macros): a macro is shown as it is if it fits, otherwise as many of its characters as fit together with the ellipsis. -/
theorem C67_macro (ellipsis : List Nat) (cells : Nat) (s : List Nat) (chars : List (List Nat × Nat)) (limit : Nat) (hl : cells ≤ limit) :
    ∃ out, appendMacro ellipsis cells s chars limit = s ++ out ∧ Shortened ellipsis cells limit chars out := by
  obtain ⟨d, r, t, h1, h2, h3, h4⟩ := macro_spec limit (limit - cells) (by omega) s [] 0 chars (.inl rfl)
  have e : macroLoop limit (limit - cells) s 0 0 chars = (s ++ textOf d, width d, t) := by
    rw [← h1]
    simp [textOf, width]
  rw [List.nil_append] at h2
  unfold appendMacro
  rw [e]
  simp only
  by_cases hw : width d > limit
  · rw [if_pos hw]
    obtain ⟨p, c, q, k1, k2, k3, k4⟩ := h4 hw
    refine ⟨textOf p ++ ellipsis, ?_, .inr ⟨?_, p, c, q ++ r, ?_, rfl, by omega, by omega⟩⟩
    · rw [k1, textOf_append, k2, ← List.append_assoc, List.take_left, List.append_assoc]
    · rw [h2, width_append]; omega
    · rw [h2, k1]; simp
  · rw [if_neg hw]
    rcases h3 with rfl | h3
    · rw [List.append_nil] at h2
      subst h2
      exact ⟨_, rfl, .inl ⟨by omega, rfl⟩⟩
    · exact absurd h3 hw

/-! Cases -/

/-- Seven entries in three columns: three rows. -/
example : IsRows 3 7 3 := ⟨by omega, fun r h => by omega⟩

/-- Along the rows; and down the columns, where the entry 7 (counted from 0) does not belong to the category and 5 is missing. -/
example : (groupRows false 3 0 7).map shown = [[0, 1, 2], [3, 4, 5], [6]] ∧ (groupRows true 3 0 7).map shown = [[0, 3, 6], [1, 4, 7], [2]] ∧
    (groupRows true 3 0 8).map shown = [[0, 3, 6], [1, 4, 7], [2, 5]] := by decide +kernel

/-- Two categories: the second row shows the first entry of the second category (8) among those of the first, and 6 nowhere. -/
example : (lines true true 3 (List.replicate 7 2 ++ List.replicate 2 5)).map shown = [[], [1, 4, 7], [2, 5, 8], [3], [], [], [8, 9]] ∧
    lines true true 3 (List.replicate 7 2 ++ List.replicate 2 5) = expected true 3 true 1 [(2, 7), (5, 2)] := by decide +kernel

/-- Duplicates: `C-b` is lost; with one entry more, freed memory is read. -/
example : dedup [entry "C-a" "f", entry "C-a" "f", entry "C-b" "g"] 5 = some [some (1, entry "C-a" "f")] ∧
    dedup [entry "C-a" "f", entry "C-a" "f", entry "C-b" "g", entry "C-c" "h"] 5 = none ∧
    dedup [entry "C-a" "f", entry "C-b" "g", entry "" "h", entry "" "i"] 0 =
      some [some (1, entry "C-a" "f"), some (2, entry "C-b" "g"), some (3, entry "" "h"), some (4, entry "" "i")] := by decide +kernel

/-- Modifiers, order, name without case, name, and whether there is a function. -/
example : cmpSort { entry "x" "f" with sort := 65536 } { entry "a" "f" with sort := 131072 } < 0 ∧
    cmpSort { entry "x" "f" with sort := 65536 + 65535 } { entry "a" "f" with sort := 65536 } < 0 ∧
    cmpSort (entry "B" "f") (entry "a" "f") > 0 ∧ cmpSort (entry "A" "f") (entry "a" "f") < 0 ∧
    cmpSort (entry "a" "f") { entry "a" "f" with func := none } < 0 ∧ cmpSort (entry "a" "x") (entry "a" "b") = 0 := by decide +kernel

/-- Five characters, one of them wide, in four cells with an ellipsis of one; and in six. -/
example : appendMacro [46] 1 [34] [([97], 1), ([98], 1), ([228, 184, 128], 2), ([99], 1), ([100], 1)] 4 = [34, 97, 98, 46] ∧
    appendMacro [46] 1 [34] [([97], 1), ([98], 1), ([228, 184, 128], 2), ([99], 1), ([100], 1)] 6 = [34, 97, 98, 228, 184, 128, 99, 100] ∧
    appendMacro [46] 1 [34] [([97], 1), ([98], 1), ([228, 184, 128], 2), ([99], 1), ([100], 1)] 5 = [34, 97, 98, 228, 184, 128, 46] := by decide +kernel

end Clink.KeyList
