import Verif.Model.HistExpand
import Verif.Spec.HistExpand
import Mathlib.Data.List.Induction

namespace Clink.HistExpand

open Spec

/-- One character of the loop. -/
def one (q c : Nat) : Nat := if c = 39 ∨ c = 34 then (if c = q then 0 else c) else q

def fold (u : List Nat) (q : Nat) : Nat := u.foldl one q

theorem scan_eq : ∀ (u rest : List Nat) (q : Nat), 0 ∉ u → scan u.length (u ++ rest) q = fold u q := by
  intro u
  induction u with
  | nil => intro rest q _; simp [scan, fold]
  | cons c u ih =>
    intro rest q h
    rw [List.length_cons, List.cons_append, scan, if_neg (fun hc => h (by simp [hc])), ih _ _ (fun hc => h (by simp [hc]))]
    rfl

theorem fold_append (u v : List Nat) (q : Nat) : fold (u ++ v) q = fold v (fold u q) := List.foldl_append

theorem fold_plain {u : List Nat} (h : Plain u) (q : Nat) : fold u q = q := by
  induction u generalizing q with
  | nil => rfl
  | cons c u ih =>
    have hc : ¬ (c = 39 ∨ c = 34) := h c (by simp)
    show fold u (one q c) = q
    rw [one, if_neg hc]
    exact ih (fun x hx => h x (by simp [hx])) q

theorem one_open {q : Nat} (h : IsQuote q) : one 0 q = q := by rcases h with rfl | rfl <;> rfl
theorem one_close {q : Nat} (h : IsQuote q) : one q q = 0 := by rcases h with rfl | rfl <;> rfl

theorem NotMixed.prefix {u r : List Nat} (h : NotMixed (u ++ r)) : NotMixed u := by
  intro v q w r' e
  exact h v q w (r' ++ r) (by rw [e]; simp)

theorem closed_fold {u : List Nat} (h : Closed u) : NotMixed u → fold u 0 = 0 := by
  induction h with
  | plain h => intro _; exact fold_plain h 0
  | @quote u q v hu hq hv w hw ih =>
    intro hm
    have h0 : fold u 0 = 0 := ih (NotMixed.prefix (r := q :: v ++ q :: w) (by simpa using hm))
    have hp : Plain v := hm u q v (q :: w) (by simp) hq hu hv
    rw [fold_append, fold_append, h0]
    show fold w (one (fold v (one 0 q)) q) = 0
    rw [one_open hq, fold_plain hp, one_close hq, fold_plain hw]

theorem inside_fold {u : List Nat} {q : Nat} (h : Inside q u) (hm : NotMixed u) : fold u 0 = q := by
  obtain ⟨v, w, rfl, hq, hc, hw⟩ := h
  rw [fold_append, closed_fold hc (NotMixed.prefix hm)]
  show fold w (one 0 q) = q
  rw [one_open hq]
  exact fold_plain (hm v q w [] (by simp) hq hc hw) q

/-- Every position is outside of quotations or inside of one. -/
theorem closed_or_inside (u : List Nat) : Closed u ∨ ∃ q, Inside q u := by
  induction u using List.reverseRecOn with
  | nil => exact .inl (.plain (by simp [Plain]))
  | append_singleton u c ih =>
    by_cases hc : IsQuote c
    · rcases ih with h | ⟨q, v, w, rfl, hq, hv, hw⟩
      · exact .inr ⟨c, u, [], rfl, hc, h, by simp⟩
      · by_cases e : c = q
        · subst e
          exact .inl (by simpa using Closed.quote (w := []) hv hq hw (by simp [Plain]))
        · exact .inr ⟨q, v, w ++ [c], by simp, hq, hv, by simp [hw, Ne.symm e]⟩
    · rcases ih with h | ⟨q, v, w, rfl, hq, hv, hw⟩
      · left
        cases h with
        | plain h => exact .plain (by intro x hx; rcases List.mem_append.1 hx with h' | h'; exact h x h'; simp at h'; exact h' ▸ hc)
        | @quote u q v hu hq hv w hw =>
          have := Closed.quote (w := w ++ [c]) hu hq hv (by
            intro x hx; rcases List.mem_append.1 hx with h' | h'; exact hw x h'; simp at h'; exact h' ▸ hc)
          simpa using this
      · exact .inr ⟨q, v, w ++ [c], by simp, hq, hv, by
          have : q ≠ c := fun e => hc (e ▸ hq)
          simp [hw, this]⟩

/-- One character of real quotations. -/
def real (q c : Nat) : Nat := if q = 0 then (if c = 39 ∨ c = 34 then c else 0) else if c = q then 0 else q

theorem real_plain {u : List Nat} (h : Plain u) : u.foldl real 0 = 0 := by
  induction u with
  | nil => rfl
  | cons c u ih =>
    have hc : ¬ (c = 39 ∨ c = 34) := h c (by simp)
    show u.foldl real (real 0 c) = 0
    rw [real, if_pos rfl, if_neg hc]
    exact ih fun x hx => h x (by simp [hx])

theorem real_inside {q : Nat} (hq : IsQuote q) {w : List Nat} (h : q ∉ w) : w.foldl real q = q := by
  have h0 : q ≠ 0 := by rcases hq with rfl | rfl <;> decide
  induction w with
  | nil => rfl
  | cons c w ih =>
    show w.foldl real (real q c) = q
    rw [real, if_neg h0, if_neg (fun e => h (by simp [e]))]
    exact ih fun e => h (by simp [e])

theorem real_open {q : Nat} (h : IsQuote q) : real 0 q = q := by rcases h with rfl | rfl <;> rfl
theorem real_close {q : Nat} (h : IsQuote q) : real q q = 0 := by rcases h with rfl | rfl <;> rfl

theorem closed_real {u : List Nat} (h : Closed u) : u.foldl real 0 = 0 := by
  induction h with
  | plain h => exact real_plain h
  | @quote u q v hu hq hv w hw ih =>
    rw [List.foldl_append, List.foldl_append, ih, List.foldl_cons, List.foldl_cons, real_open hq, real_inside hq hv, real_close hq, real_plain hw]

/-- A position is inside of at most one quotation, and then not outside of all. -/
theorem inside_real {u : List Nat} {q : Nat} (h : Inside q u) : u.foldl real 0 = q ∧ q ≠ 0 := by
  obtain ⟨v, w, rfl, hq, hc, hw⟩ := h
  refine ⟨?_, by rcases hq with rfl | rfl <;> decide⟩
  rw [List.foldl_append, closed_real hc, List.foldl_cons, real_open hq, real_inside hq hw]

theorem control_eq (setting : Int) (hs : 2 ≤ setting) (u rest : List Nat) (h0 : 0 ∉ u) :
    control setting (u ++ rest) u.length = true ↔ Protects setting (fold u 0) := by
  unfold control Protects
  rw [if_neg (by omega)]
  simp only [scan_eq u rest 0 h0]
  obtain ⟨q, hq⟩ : ∃ q, q = fold u 0 := ⟨_, rfl⟩
  rw [← hq]
  by_cases h2 : setting = 2
  · subst h2; simp
  · by_cases h3 : setting = 3
    · subst h3; simp
    · by_cases h4 : setting = 4
      · subst h4; simp; exact or_comm
      · simp [h2, h3, h4]

theorem fold_quotes (u : List Nat) (q : Nat) : fold u q = fold (quotes u) q := by
  induction u generalizing q with
  | nil => rfl
  | cons c u ih =>
    show fold u (one q c) = _
    by_cases hc : c = 39 ∨ c = 34
    · have : quotes (c :: u) = c :: quotes u := by simp [quotes, hc]
      rw [this]
      exact ih _
    · have : quotes (c :: u) = quotes u := by
        unfold quotes; rw [List.filter_cons_of_neg (by simpa using hc)]
      rw [this, one, if_neg hc]
      exact ih q

theorem fold_last (p : List Nat) (hp : ∀ c ∈ p, IsQuote c) (q : Nat) (hq : IsQuote q) (hl : p.getLast? ≠ some q) : fold p 0 ≠ q := by
  rcases List.eq_nil_or_concat p with rfl | ⟨p, c, rfl⟩
  · rcases hq with rfl | rfl <;> simp [fold]
  · rw [List.concat_eq_append] at *
    rw [fold_append]
    show one (fold p 0) c ≠ q
    have hc : c ≠ q := by simpa using hl
    have := hp c (by simp)
    unfold one
    rw [if_pos (show c = 39 ∨ c = 34 from this)]
    split
    · rcases hq with rfl | rfl <;> simp
    · exact hc

theorem fold_run (q : Nat) (hq : IsQuote q) : ∀ n x, x ≠ q → fold (List.replicate (n + 1) q) x = if n % 2 = 0 then q else 0 := by
  intro n
  induction n with
  | zero =>
    intro x hx
    show one x q = q
    unfold one; rw [if_pos (show q = 39 ∨ q = 34 from hq), if_neg (fun h => hx h.symm)]
  | succ n ih =>
    intro x hx
    rw [List.replicate_succ', fold_append, ih x hx]
    show one _ q = _
    by_cases h : n % 2 = 0
    · rw [if_pos h, if_neg (by omega), one_close hq]
    · rw [if_neg h, if_pos (by omega), one_open hq]

end Clink.HistExpand
