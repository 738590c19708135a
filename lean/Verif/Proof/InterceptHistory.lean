import Verif.Proof.InterceptLine

/-! The directory history. -/

namespace Clink.Intercept

open Spec
open Settings (same)

theorem same_lower (a b : List Nat) : same a b = true ↔ lower a = lower b := by
  unfold same lower
  exact beq_iff_eq

def run (max : Nat) (steps : List (Bool × List Nat)) : List (List Nat) := steps.foldl (fun h s => update max s.1 s.2 h) []

theorem run_nil (max : Nat) : run max [] = [] := rfl

theorem run_snoc (max : Nat) (steps : List (Bool × List Nat)) (s : Bool × List Nat) : run max (steps ++ [s]) = update max s.1 s.2 (run max steps) := by
  simp [run]

/-- `update` in terms of the entries before the current directory. -/
theorem update_form (max : Nat) (erase : Bool) (cwd : List Nat) (h : List (List Nat)) :
    ∃ g y, update max erase cwd h = (g ++ [y]).drop (g.length + 1 - max) ∧ lower y = lower cwd ∧
      (if erase then g = h.filter (fun d => !same d cwd) ∧ y = cwd
        else (g = h ∧ y = cwd ∧ (∀ z, h.getLast? = some z → lower z ≠ lower cwd)) ∨ h = g ++ [y]) := by
  unfold update
  cases erase with
  | true =>
    simp only [if_true]
    refine ⟨h.filter fun d => !same d cwd, cwd, ?_, rfl, rfl, rfl⟩
    cases hl : (h.filter fun d => !same d cwd).getLast? with
    | none => simp
    | some b =>
      have hb := (List.mem_filter.1 (List.mem_of_getLast? hl)).2
      dsimp only
      rw [if_pos hb]
      simp
  | false =>
    simp only [Bool.false_eq_true, if_false]
    cases hl : h.getLast? with
    | none =>
      rw [List.getLast?_eq_none_iff] at hl
      subst hl
      exact ⟨[], cwd, by simp, rfl, .inl ⟨rfl, rfl, by simp⟩⟩
    | some b =>
      cases hs : same b cwd with
      | true =>
        obtain ⟨g, hg⟩ := List.getLast?_eq_some_iff.1 hl
        refine ⟨g, b, ?_, (same_lower _ _).1 hs, .inr hg⟩
        simp [hg, hs]
      | false =>
        refine ⟨h, cwd, by simp [hs], rfl, .inl ⟨rfl, rfl, ?_⟩⟩
        intro z hz
        rw [← Option.some.inj hz, Ne, ← same_lower, hs]
        simp

theorem drop_snoc (g : List (List Nat)) (y : List Nat) {max : Nat} (h : 1 ≤ max) : (g ++ [y]).drop (g.length + 1 - max) = g.drop (g.length + 1 - max) ++ [y] := by
  rw [List.drop_append_of_le_length (by omega)]

theorem update_length (max : Nat) (erase : Bool) (cwd : List Nat) (h : List (List Nat)) : (update max erase cwd h).length ≤ max := by
  obtain ⟨g, y, h1, -⟩ := update_form max erase cwd h
  rw [h1]
  simp
  omega

theorem run_length (max : Nat) (steps : List (Bool × List Nat)) : (run max steps).length ≤ max := by
  rcases List.eq_nil_or_concat steps with rfl | ⟨l, s, rfl⟩
  · simp [run]
  · rw [List.concat_eq_append, run_snoc]
    exact update_length ..

theorem update_sub (max : Nat) (erase : Bool) (cwd : List Nat) (h : List (List Nat)) : (update max erase cwd h).Sublist (h ++ [cwd]) := by
  obtain ⟨g, y, h1, h2, h3⟩ := update_form max erase cwd h
  rw [h1]
  refine (List.drop_sublist _ _).trans ?_
  cases erase with
  | true =>
    simp only [if_true] at h3
    rw [h3.1, h3.2]
    exact List.Sublist.append List.filter_sublist (List.Sublist.refl _)
  | false =>
    simp only [Bool.false_eq_true, if_false] at h3
    rcases h3 with ⟨h3, h4, -⟩ | h3
    · rw [h3, h4]
      exact List.Sublist.refl _
    · rw [h3]
      exact List.sublist_append_left _ _

theorem run_sub (max : Nat) (steps : List (Bool × List Nat)) : (run max steps).Sublist (steps.map (·.2)) := by
  suffices h : ∀ n, ∀ steps : List (Bool × List Nat), steps.length = n → (run max steps).Sublist (steps.map (·.2)) from h _ steps rfl
  intro n
  induction n with
  | zero =>
    intro steps h
    rw [List.length_eq_zero_iff] at h
    subst h
    exact List.Sublist.refl _
  | succ n ih =>
    intro steps h
    rcases List.eq_nil_or_concat steps with rfl | ⟨l, s, rfl⟩
    · simp at h
    · rw [List.concat_eq_append] at *
      rw [run_snoc, List.map_append]
      simp at h
      exact (update_sub ..).trans (List.Sublist.append (ih l h) (List.Sublist.refl _))

/-- The current directory is the last entry, the one before is the most recent different one. -/
def Inv (visits h : List (List Nat)) : Prop :=
  (visits = [] ∧ h = []) ∨ ∃ v cwd g y, visits = v ++ [cwd] ∧ h = g ++ [y] ∧ lower y = lower cwd ∧
    ((g = [] ∧ ∀ x ∈ v, lower x = lower cwd) ∨ ∃ g' p d, g = g' ++ [p] ∧ Previous visits d ∧ lower p = lower d ∧ lower d ≠ lower cwd)

theorem previous_stay {v : List (List Nat)} {cwd cwd' d : List Nat} (h : Previous (v ++ [cwd]) d) (hs : lower cwd = lower cwd') : Previous (v ++ [cwd] ++ [cwd']) d := by
  obtain ⟨a, b, c, h1, h2, h3⟩ := h
  obtain ⟨h4, h5⟩ := List.append_inj_right' h1 rfl |> fun e => (⟨List.append_inj_left' h1 rfl, by simpa using e⟩ : v = a ++ [d] ++ b ∧ cwd = c)
  subst h5
  refine ⟨a, b ++ [cwd], cwd', ?_, ?_, ?_⟩
  · rw [h4]; simp
  · rw [← hs]; exact h2
  · intro x hx
    rcases List.mem_append.1 hx with hx | hx
    · rw [h3 x hx, hs]
    · simp at hx
      rw [hx, hs]

theorem inv_step {visits h : List (List Nat)} (hi : Inv visits h) {max : Nat} (hm : 2 ≤ max) (erase : Bool) (cwd : List Nat) : Inv (visits ++ [cwd]) (update max erase cwd h) := by
  obtain ⟨g, y, h1, h2, h3⟩ := update_form max erase cwd h
  rw [h1, drop_snoc _ _ (by omega)]
  right
  refine ⟨visits, cwd, _, y, rfl, rfl, h2, ?_⟩
  have hdrop : ∀ g' p, g = g' ++ [p] → ∃ g'', g.drop (g.length + 1 - max) = g'' ++ [p] := by
    rintro g' p rfl
    refine ⟨g'.drop (g'.length + 2 - max), ?_⟩
    rw [List.drop_append_of_le_length (by simp; omega)]
    simp
  rcases hi with ⟨rfl, rfl⟩ | ⟨v, c, g1, y1, rfl, rfl, i1, i2⟩
  · left
    refine ⟨?_, by simp⟩
    cases erase with
    | true =>
      simp only [if_true] at h3
      rw [h3.1]; simp
    | false =>
      simp only [Bool.false_eq_true, if_false] at h3
      rcases h3 with ⟨h3, -⟩ | h3
      · rw [h3]; simp
      · simp at h3
  · by_cases hs : lower c = lower cwd
    · -- the same directory as before
      have hg : g1 = [] ∧ g = [] ∨ ∃ g0 p, g1 = g0 ++ [p] ∧ (lower p ≠ lower cwd → ∃ g', g = g' ++ [p]) := by
        rcases i2 with ⟨i2, -⟩ | ⟨g0, p, d, i2, -⟩
        · left
          refine ⟨i2, ?_⟩
          subst i2
          cases erase with
          | true =>
            simp only [if_true] at h3
            rw [h3.1]
            simp
            rw [same_lower, i1, hs]
          | false =>
            simp only [Bool.false_eq_true, if_false] at h3
            rcases h3 with ⟨-, -, h3⟩ | h3
            · exact absurd (i1.trans hs) (h3 y1 (by simp))
            · exact (List.append_inj_left' h3 rfl).symm
        · right
          refine ⟨g0, p, i2, fun hp => ?_⟩
          subst i2
          cases erase with
          | true =>
            simp only [if_true] at h3
            rw [h3.1]
            refine ⟨g0.filter fun d => !same d cwd, ?_⟩
            have e1 : same y1 cwd = true := by rw [same_lower, i1, hs]
            have e2 : same p cwd = false := by
              cases e : same p cwd with
              | false => rfl
              | true => exact absurd ((same_lower _ _).1 e) hp
            simp [e1, e2]
          | false =>
            simp only [Bool.false_eq_true, if_false] at h3
            rcases h3 with ⟨-, -, h3⟩ | h3
            · exact absurd (i1.trans hs) (h3 y1 (by simp))
            · exact ⟨g0, (List.append_inj_left' h3 rfl).symm⟩
      rcases i2 with ⟨i2, i3⟩ | ⟨g0, p, d, i2, i3, i4, i5⟩
      · left
        rcases hg with ⟨-, hg⟩ | ⟨g0, p, hg, -⟩
        · subst hg
          refine ⟨by simp, ?_⟩
          intro x hx
          rcases List.mem_append.1 hx with hx | hx
          · rw [i3 x hx, hs]
          · simp at hx
            rw [hx, hs]
        · rw [i2] at hg; simp at hg
      · right
        rcases hg with ⟨hg, -⟩ | ⟨g0', p', hg, hg'⟩
        · rw [i2] at hg; simp at hg
        · have : p' = p := by
            rw [i2] at hg
            have := List.append_inj_right' hg rfl
            simpa using this.symm
          subst this
          obtain ⟨g', hg'⟩ := hg' (by rw [i4, ← hs]; exact i5)
          obtain ⟨g'', hg''⟩ := hdrop g' p' hg'
          exact ⟨g'', p', d, hg'', previous_stay i3 hs, i4, by rw [← hs]; exact i5⟩
    · -- another directory
      right
      have hg : ∃ g', g = g' ++ [y1] := by
        cases erase with
        | true =>
          simp only [if_true] at h3
          rw [h3.1]
          refine ⟨g1.filter fun d => !same d cwd, ?_⟩
          have e2 : same y1 cwd = false := by
            cases e : same y1 cwd with
            | false => rfl
            | true => exact absurd (i1.symm.trans ((same_lower _ _).1 e)) hs
          simp [e2]
        | false =>
          simp only [Bool.false_eq_true, if_false] at h3
          rcases h3 with ⟨h3, -⟩ | h3
          · exact ⟨g1, h3⟩
          · have := List.append_inj_right' h3 rfl
            simp at this
            rw [← this, i1] at h2
            exact absurd h2 hs
      obtain ⟨g', hg⟩ := hg
      obtain ⟨g'', hg''⟩ := hdrop g' y1 hg
      refine ⟨g'', y1, c, hg'', ⟨v, [], cwd, by simp, hs, by simp⟩, i1, hs⟩

theorem inv_run {max : Nat} (hm : 2 ≤ max) (steps : List (Bool × List Nat)) : Inv (steps.map (·.2)) (run max steps) := by
  suffices h : ∀ n, ∀ steps : List (Bool × List Nat), steps.length = n → Inv (steps.map (·.2)) (run max steps) from h _ steps rfl
  intro n
  induction n with
  | zero =>
    intro steps h
    rw [List.length_eq_zero_iff] at h
    subst h
    exact .inl ⟨rfl, rfl⟩
  | succ n ih =>
    intro steps h
    rcases List.eq_nil_or_concat steps with rfl | ⟨l, s, rfl⟩
    · simp at h
    · rw [List.concat_eq_append] at *
      rw [run_snoc, List.map_append]
      simp at h
      exact inv_step (ih l h) hm s.1 s.2

theorem previous_unique {visits : List (List Nat)} {d d' : List Nat} (h : Previous visits d) (h' : Previous visits d') : d = d' := by
  obtain ⟨a, b, c, h1, h2, h3⟩ := h
  obtain ⟨a', b', c', i1, i2, i3⟩ := h'
  have e := h1.symm.trans i1
  have ec : c = c' := by simpa using List.append_inj_right' e rfl
  subst ec
  have e2 : (a ++ [d] ++ b).reverse = (a' ++ [d'] ++ b').reverse := by rw [List.append_inj_left' e rfl]
  simp at e2
  have key : ∀ (u u' : List (List Nat)) (r r' : List (List Nat)), (∀ x ∈ u, lower x = lower c) → (∀ x ∈ u', lower x = lower c) → u ++ d :: r = u' ++ d' :: r' → d = d' := by
    intro u
    induction u with
    | nil =>
      intro u' r r' _ h2' e
      cases u' with
      | nil => simp at e; exact e.1
      | cons x u' =>
        simp at e
        rw [e.1] at h2
        exact absurd (h2' x (by simp)) h2
    | cons x u ih =>
      intro u' r r' h1' h2' e
      cases u' with
      | nil =>
        simp at e
        rw [← e.1] at i2
        exact absurd (h1' x (by simp)) i2
      | cons x' u' =>
        simp at e
        exact ih u' r r' (fun z hz => h1' z (by simp [hz])) (fun z hz => h2' z (by simp [hz])) e.2
  exact key _ _ _ _ (fun x hx => h3 x (List.mem_reverse.1 hx)) (fun x hx => i3 x (List.mem_reverse.1 hx)) e2

theorem prevDir_snoc (g : List (List Nat)) (y : List Nat) : prevDir (g ++ [y]) = g.getLast? := by
  unfold prevDir
  rcases List.eq_nil_or_concat g with rfl | ⟨g', p, rfl⟩
  · simp
  · simp

/-! Always adding, always erasing. -/

theorem newest_drop (n : Nat) (l : List (List Nat)) : newest n l = l.drop (l.length - n) := by
  unfold newest
  rw [List.take_reverse, List.reverse_reverse]

theorem newest_all {n : Nat} {l : List (List Nat)} (h : l.length ≤ n) : newest n l = l := by
  rw [newest_drop, show l.length - n = 0 by omega]; rfl

theorem newest_append {n : Nat} (a : List (List Nat)) {b : List (List Nat)} (h : n ≤ b.length) : newest n (a ++ b) = newest n b := by
  rw [newest_drop, newest_drop, List.drop_append, List.drop_of_length_le (by simp; omega)]
  simp
  congr 1
  omega

theorem newest_split (n : Nat) (l : List (List Nat)) : ∃ a, l = a ++ newest n l ∧ (a = [] ∨ (newest n l).length = n) := by
  refine ⟨l.take (l.length - n), ?_, ?_⟩
  · rw [newest_drop, List.take_append_drop]
  · by_cases h : l.length ≤ n
    · left
      rw [show l.length - n = 0 by omega]; rfl
    · right
      rw [newest_drop]
      simp
      omega

theorem newest_length (n : Nat) (l : List (List Nat)) : (newest n l).length ≤ n := by
  unfold newest
  simp
  omega

theorem newest_last {n : Nat} (hn : 1 ≤ n) (l : List (List Nat)) : (newest n l).getLast? = l.getLast? := by
  rcases List.eq_nil_or_concat l with rfl | ⟨l', p, rfl⟩
  · simp [newest]
  · obtain ⟨m, rfl⟩ : ∃ m, n = m + 1 := ⟨n - 1, by omega⟩
    simp [newest]

theorem movesFrom_snoc (x : List Nat) : ∀ (l : List (List Nat)) (p : List Nat),
    movesFrom p (l ++ [x]) = if lower x = lower ((movesFrom p l).getLast?.getD p) then movesFrom p l else movesFrom p l ++ [x]
  | [], p => by
    simp only [List.nil_append, movesFrom, List.getLast?_nil, Option.getD_none]
    split <;> simp_all
  | y :: l, p => by
    rw [List.cons_append, movesFrom, movesFrom]
    by_cases h : lower y = lower p
    · simp only [h, if_true]
      exact movesFrom_snoc x l p
    · simp only [h, if_false]
      rw [movesFrom_snoc x l y]
      rw [List.getLast?_cons, Option.getD_some]
      split
      · rfl
      · rfl

theorem moves_snoc (l : List (List Nat)) (x : List Nat) :
    moves (l ++ [x]) = match (moves l).getLast? with | none => [x] | some z => if lower x = lower z then moves l else moves l ++ [x] := by
  cases l with
  | nil => rfl
  | cons y l =>
    rw [List.cons_append, moves, moves, movesFrom_snoc, List.getLast?_cons]
    dsimp only
    split <;> rfl

theorem run_add {max : Nat} (hm : 1 ≤ max) (steps : List (Bool × List Nat)) (hs : ∀ s ∈ steps, s.1 = false) : run max steps = newest max (moves (steps.map (·.2))) := by
  suffices h : ∀ n, ∀ steps : List (Bool × List Nat), (∀ s ∈ steps, s.1 = false) → steps.length = n → run max steps = newest max (moves (steps.map (·.2))) from h _ steps hs rfl
  intro n
  induction n with
  | zero =>
    intro steps _ h
    rw [List.length_eq_zero_iff] at h
    subst h
    simp [run, moves, newest]
  | succ n ih =>
    intro steps hs h
    rcases List.eq_nil_or_concat steps with rfl | ⟨l, s, rfl⟩
    · simp at h
    · rw [List.concat_eq_append] at *
      simp at h
      obtain ⟨e, x⟩ := s
      have he : e = false := hs (e, x) (by simp)
      subst he
      rw [run_snoc, List.map_append, ih l (fun s' h' => hs s' (by simp [h'])) h, List.map_cons, List.map_nil, moves_snoc]
      have hlast := newest_last hm (moves (l.map (·.2)))
      have hsplit := newest_split max (moves (l.map (·.2)))
      have hlen := newest_length max (moves (l.map (·.2)))
      generalize newest max (moves (l.map (·.2))) = N at *
      unfold update
      simp only [Bool.false_eq_true, if_false]
      rw [← hlast]
      obtain ⟨a, h1, h2⟩ := hsplit
      cases hN : N.getLast? with
      | none =>
        rw [List.getLast?_eq_none_iff] at hN
        subst hN
        exact (newest_drop max [x]).symm
      | some z =>
        dsimp only
        by_cases hz : lower x = lower z
        · rw [if_pos hz, if_neg (by simp [(same_lower z x).2 hz.symm]), h1]
          rw [show N.length - max = 0 by omega, List.drop_zero]
          rcases h2 with rfl | h2
          · rw [List.nil_append, newest_all hlen]
          · rw [newest_append _ (by omega), newest_all hlen]
        · rw [if_neg hz, if_pos (by
            simp
            cases e : same z x with
            | false => rfl
            | true => exact absurd ((same_lower _ _).1 e).symm hz), ← newest_drop, h1]
          rcases h2 with rfl | h2
          · rw [List.nil_append]
          · rw [List.append_assoc, newest_append a (by simp; omega)]

theorem latest_mem {x : List Nat} : ∀ {l : List (List Nat)}, x ∈ latest l → x ∈ l
  | [], h => by cases h
  | y :: l, h => by
    rw [latest] at h
    split at h
    · exact List.mem_cons_of_mem _ (latest_mem h)
    · rcases List.mem_cons.1 h with rfl | h
      · simp
      · exact List.mem_cons_of_mem _ (latest_mem h)

theorem latest_distinct : ∀ l : List (List Nat), (latest l).Pairwise fun a b => lower a ≠ lower b
  | [] => .nil
  | y :: l => by
    rw [latest]
    split
    · exact latest_distinct l
    · rename_i h
      refine .cons ?_ (latest_distinct l)
      intro z hz he
      exact h (List.mem_map.2 ⟨z, latest_mem hz, he.symm⟩)

theorem latest_snoc (x : List Nat) : ∀ l : List (List Nat), latest (l ++ [x]) = (latest l).filter (fun d => !same d x) ++ [x]
  | [] => by simp [latest]
  | y :: l => by
    rw [List.cons_append, latest, latest, latest_snoc x l]
    by_cases hy : lower y = lower x
    · rw [if_pos (by rw [hy]; simp)]
      split
      · rfl
      · rw [List.filter_cons, if_neg (by simp [(same_lower y x).2 hy])]
    · have e : same y x = false := by
        cases e : same y x with
        | false => rfl
        | true => exact absurd ((same_lower _ _).1 e) hy
      by_cases hl : lower y ∈ l.map lower
      · rw [if_pos hl, if_pos (by rw [List.map_append]; exact List.mem_append_left _ hl)]
      · rw [if_neg hl, if_neg, List.filter_cons, if_pos (by simp [e])]
        · rfl
        · rw [List.map_append, List.mem_append]
          rintro (h | h)
          · exact hl h
          · simp at h; exact hy h

theorem filter_once {x : List Nat} : ∀ {l : List (List Nat)}, l.Pairwise (fun a b => lower a ≠ lower b) → l.length ≤ (l.filter (fun d => !same d x)).length + 1
  | [], _ => by simp
  | y :: l, h => by
    obtain ⟨h1, h2⟩ := List.pairwise_cons.1 h
    rw [List.filter_cons]
    split
    · have := filter_once (x := x) h2
      simp; omega
    · rename_i hy
      simp at hy
      have : l.filter (fun d => !same d x) = l := by
        rw [List.filter_eq_self]
        intro z hz
        cases e : same z x with
        | false => rfl
        | true =>
          rw [same_lower] at hy e
          exact absurd (hy.trans e.symm) (h1 z hz)
      rw [this]
      simp

theorem run_erase {max : Nat} (hm : 1 ≤ max) (steps : List (Bool × List Nat)) (hs : ∀ s ∈ steps, s.1 = true) : run max steps = newest max (latest (steps.map (·.2))) := by
  suffices h : ∀ n, ∀ steps : List (Bool × List Nat), (∀ s ∈ steps, s.1 = true) → steps.length = n → run max steps = newest max (latest (steps.map (·.2))) from h _ steps hs rfl
  intro n
  induction n with
  | zero =>
    intro steps _ h
    rw [List.length_eq_zero_iff] at h
    subst h
    simp [run, latest, newest]
  | succ n ih =>
    intro steps hs h
    rcases List.eq_nil_or_concat steps with rfl | ⟨l, s, rfl⟩
    · simp at h
    · rw [List.concat_eq_append] at *
      simp at h
      obtain ⟨e, x⟩ := s
      have he : e = true := hs (e, x) (by simp)
      subst he
      rw [run_snoc, List.map_append, ih l (fun s' h' => hs s' (by simp [h'])) h, List.map_cons, List.map_nil, latest_snoc]
      have hd := latest_distinct (l.map (·.2))
      obtain ⟨a, h1, h2⟩ := newest_split max (latest (l.map (·.2)))
      generalize hN : newest max (latest (l.map (·.2))) = N at *
      obtain ⟨g, y, u1, u2, u3⟩ := update_form max true x N
      simp only [if_true] at u3
      dsimp only
      rw [u1, u3.1, u3.2]
      have hl : (N.filter (fun d => !same d x)).length + 1 = (N.filter (fun d => !same d x) ++ [x]).length := by simp
      rw [hl, ← newest_drop, h1, List.filter_append, List.append_assoc]
      rcases h2 with rfl | h2
      · rfl
      · rw [h1] at hd
        have := filter_once (x := x) (List.pairwise_append.1 hd).2.1
        have hle : max ≤ (N.filter (fun d => !same d x) ++ [x]).length := by rw [← hl]; omega
        rw [newest_append _ hle]

end Clink.Intercept
