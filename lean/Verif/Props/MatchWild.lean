import Verif.Proof.MatchWild
/- C07, C08: wildcard matching. -/
namespace Clink.MatchWild
open Clink.StrCompare

/-- C07: a reported match is a real one, in every mode. -/
theorem C07_sound (a : Args) (hok : LowerOk a.lower) (h : matchWild a = true) : Inst a a.pattern a.file := by
  rcases run_sound a hok a.pattern a.file [] (List.suffix_refl _) (List.suffix_refl _) (by simp) h with h | ⟨e, he, -⟩
  · exact h
  · simp at he

/-- C08: every instance is found, provided the pattern has at most ten groups of wildcards with
a star and neither string has two separators in a row. -/
theorem C08_complete (a : Args) (hok : CharsOk a.lower) (hs : starGroups false a.pattern ≤ 10)
    (hp : NoAdj a.pattern) (hf : NoAdj a.file) (h : Inst a a.pattern a.file) : matchWild a = true :=
  run_complete a hok hp hf _ _ [] ⟨List.suffix_refl _, List.suffix_refl _, fun _ => by omega⟩ (by simp)
    (by simpa using hs) trivial (.inl h)

/-- C07 + C08: within those limits the matcher decides exactly whether the text is an instance. -/
theorem C08_exact (a : Args) (hok : CharsOk a.lower) (hs : starGroups false a.pattern ≤ 10)
    (hp : NoAdj a.pattern) (hf : NoAdj a.file) : matchWild a = true ↔ Inst a a.pattern a.file :=
  ⟨C07_sound a hok.toLowerOk, C08_complete a hok hs hp hf⟩

/-- Identity as lower-casing, for concrete runs. -/
def exArgs (dot : Bool) (me : Star) (p f : List Nat) : Args := ⟨id, 0, false, dot, me, p, f⟩

theorem id_charsOk : CharsOk id := ⟨⟨fun _ => Iff.rfl, fun _ => Iff.rfl⟩, fun _ => Iff.rfl⟩

/-- Disagreement: eleven stars that all have to be placed overflow the backtracking stack, and
the matcher answers no although the text is an instance: eleven times "*a" against eleven "a". -/
theorem C08_star_limit :
    let a := exArgs false .no (List.replicate 11 [42, 97]).flatten (List.replicate 11 97)
    Inst a a.pattern a.file ∧ starGroups false a.pattern = 11 ∧ matchWild a = false := by
  refine ⟨?_, by decide, ?_⟩
  · have hstep : ∀ (a : Args) (p f : List Nat), Inst a p f → Inst a (42 :: 97 :: p) (97 :: f) := by
      intro a p f h
      have := Inst.star (a := a) (w := []) (r := []) (by simp) (.inr (by simp))
        (Inst.lit (a := a) (c := 97) (d := 97) (by decide) (by decide) rfl h)
      simpa using this
    exact hstep _ _ _ (hstep _ _ _ (hstep _ _ _ (hstep _ _ _ (hstep _ _ _ (hstep _ _ _ (hstep _ _ _
      (hstep _ _ _ (hstep _ _ _ (hstep _ _ _ (hstep _ _ _ .nil))))))))))
  · decide +kernel

/-- Disagreement: a repeated separator in the text is passed over after an ordinary character but
not after a star: "*/b" does not match "a//b" while "a/b" does. -/
theorem C08_repeated_separator :
    let a := exArgs false .no [42, 47, 98] [97, 47, 47, 98]
    let b := exArgs false .no [97, 47, 98] [97, 47, 47, 98]
    Inst a a.pattern a.file ∧ matchWild a = false ∧ matchWild b = true := by
  refine ⟨?_, ?_, ?_⟩
  · have := Inst.star (a := exArgs false .no [42, 47, 98] [97, 47, 47, 98]) (w := []) (r := [97]) (by simp)
      (.inr (by decide))
      (Inst.sep (c := 47) (d := 47) (s := []) (t := [47]) (by decide) (by decide) (by simp) (by decide)
        (Inst.lit (c := 98) (d := 98) (by decide) (by decide) rfl .nil))
    exact this
  · decide +kernel
  · decide +kernel

/-! Concrete instances: "b*?.l?g" against "build.log", and ".git" found by "g*" with dot prefixes. -/
example : matchWild (exArgs false .no [98, 42, 63, 46, 108, 63, 103] [98, 117, 105, 46, 108, 111, 103]) = true := by
  decide +kernel
example : let a := exArgs false .no [98, 42, 63, 46, 108, 63, 103] [98, 117, 105, 46, 108, 111, 103]
    CharsOk a.lower ∧ starGroups false a.pattern ≤ 10 ∧ NoAdj a.pattern ∧ NoAdj a.file :=
  ⟨id_charsOk, by decide, by simp [exArgs, NoAdj, isSep], by simp [exArgs, NoAdj, isSep]⟩
example : matchWild (exArgs true .no [103, 42] [46, 103, 105, 116]) = true ∧
    matchWild (exArgs false .no [103, 42] [46, 103, 105, 116]) = false ∧
    matchWild (exArgs true .no [103, 105] [46, 103, 105]) = false := by decide +kernel
example : matchWild (exArgs false .no [97, 42] [97, 47, 98]) = false ∧
    matchWild (exArgs false .atEnd [97, 42] [97, 47, 98]) = true := by decide +kernel

end Clink.MatchWild
