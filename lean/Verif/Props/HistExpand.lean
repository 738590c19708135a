import Verif.Proof.HistExpand

/-! C42: where history expansion is suppressed.  `u` is the line before the character in question. -/

namespace Clink.HistExpand

open Spec

/-- On a line whose quotations do not contain the other kind of quote, expansion is suppressed exactly inside of
quotations of the kinds that the setting protects. -/
theorem C42_quotes (setting : Int) (hs : 2 ≤ setting) (u rest : List Nat) (h0 : 0 ∉ u) (hm : NotMixed u) :
    control setting (u ++ rest) u.length = true ↔ ∃ q, Inside q u ∧ Protects setting q := by
  rw [control_eq setting hs u rest h0]
  constructor
  · intro hp
    rcases closed_or_inside u with h | ⟨q, h⟩
    · rw [closed_fold h hm] at hp
      simp [Protects] at hp
    · exact ⟨q, h, by rwa [inside_fold h hm] at hp⟩
  · rintro ⟨q, h, hp⟩
    rwa [inside_fold h hm]

/-- On any line: the last quotes of one kind count; expansion is suppressed when their number is odd. -/
theorem C42_runs (setting : Int) (hs : 2 ≤ setting) (u rest : List Nat) (h0 : 0 ∉ u) (p : List Nat) (q n : Nat)
    (hu : quotes u = p ++ List.replicate (n + 1) q) (hl : p.getLast? ≠ some q) :
    control setting (u ++ rest) u.length = true ↔ n % 2 = 0 ∧ Protects setting q := by
  have hall : ∀ c ∈ quotes u, IsQuote c := by intro c hc; simpa [quotes, IsQuote] using (List.mem_filter.1 hc).2
  have hq : IsQuote q := hall q (by rw [hu]; simp)
  rw [control_eq setting hs u rest h0, fold_quotes, hu, fold_append,
    fold_run q hq n _ (fold_last p (fun c hc => hall c (by rw [hu]; simp [hc])) q hq hl)]
  split
  · rename_i h; simp [h]
  · rename_i h; simp [h, Protects]

/-- Without quotes nothing is suppressed. -/
theorem C42_plain (setting : Int) (hs : 2 ≤ setting) (u rest : List Nat) (h0 : 0 ∉ u) (hu : Plain u) :
    control setting (u ++ rest) u.length = false := by
  have : ¬ control setting (u ++ rest) u.length = true := by
    rw [control_eq setting hs u rest h0, fold_plain hu]; simp [Protects]
  simpa using this

/-- The settings "off" and "on" do not look at the line. -/
theorem C42_on_off (line : List Nat) (pos : Nat) : control 0 line pos = true ∧ control 1 line pos = false := by
  constructor <;> simp [control]

def str (s : String) : List Nat := s.toList.map Char.toNat

instance (u : List Nat) : Decidable (Plain u) := inferInstanceAs (Decidable (∀ c ∈ u, ¬ (c = 39 ∨ c = 34)))

/-- The code violates the plain claim: on `"it's !x` with double quotes protected, `!` is inside double quotes and is
expanded. -/
theorem C42_apostrophe_expands : Inside 34 (str "echo \"it's ") ∧ Protects 3 34 ∧ control 3 (str "echo \"it's !x\"") (str "echo \"it's ").length = false := by
  refine ⟨⟨str "echo ", str "it's ", by decide, .inr rfl, .plain (by decide +kernel), by decide⟩, .inr ⟨rfl, .inl rfl⟩, by decide⟩

/-- And after `"it's"` everything up to the next quotes counts as quoted. -/
theorem C42_apostrophe_protects : Closed (str "echo \"it's\" ") ∧ (∀ q, ¬ Inside q (str "echo \"it's\" ")) ∧
    control 3 (str "echo \"it's\" !x") (str "echo \"it's\" ").length = true := by
  refine ⟨Closed.quote (u := str "echo ") (q := 34) (v := str "it's") (w := [32]) (.plain (by decide)) (.inr rfl) (by decide) (by decide), ?_, by decide⟩
  intro q h
  have h1 := inside_real h
  have h2 : (str "echo \"it's\" ").foldl real 0 = 0 := by decide
  exact h1.2 (h1.1.symm.trans h2)

/-- `dir "a b" !` with a quotation that is closed, and `dir "a b!` inside. -/
example : NotMixed (str "dir \"a b\" ") ∧ 0 ∉ str "dir \"a b\" " ∧ control 4 (str "dir \"a b\" !x") 10 = false ∧ control 4 (str "dir \"a b!") 8 = true := by
  refine ⟨?_, by decide, by decide, by decide⟩
  intro v q w r e hq _ hw c hc hcq
  have hm : ∀ x ∈ str "dir \"a b\" ", IsQuote x → x = 34 := by
    intro x hx h
    rcases h with rfl | h
    · exact absurd hx (by decide)
    · exact h
  have h1 := hm q (by rw [e]; simp) hq
  have h2 := hm c (by rw [e]; simp [hc]) hcq
  exact hw (by rw [h1, ← h2]; exact hc)

example : quotes (str "a \"b\" '!") = [34, 34] ++ List.replicate 1 39 ∧ [34, 34].getLast? ≠ some 39 := by decide

end Clink.HistExpand
