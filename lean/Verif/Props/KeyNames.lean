import Verif.Proof.KeyNames

/-! C70: raw names of keys can be used in an inputrc file: readline reads them as the same keys. -/

namespace Clink.KeyNames

open Spec (Nameable place isCtrl)

/-! The property -/

/-- The name that is shown, in an inputrc file, binds the same keys, and what follows is left. -/
theorem C70_round_trip (conv : Bool) (ks : List Nat) (h : Nameable ks) (hc : ∀ c ∈ ks, c < 128 ∨ conv = false) (rest : Text) :
    bound conv (name ks ++ rest) = some (ks, rest) := by
  have e : name ks ++ rest = 34 :: (body ks ++ 34 :: rest) := by simp [name]
  rw [e]
  show (quoted (body ks ++ 34 :: rest)).map _ = _
  rw [quoted_body ks h.1]
  have : quoted (34 :: rest) = some ([], rest) := rfl
  rw [this]
  simp [translate_body conv ks h hc]

/-- So different keys have different names. -/
theorem C70_different (ks ls : List Nat) (hk : Nameable ks) (hl : Nameable ls) (h : name ks = name ls) : ks = ls := by
  have h1 := C70_round_trip false ks hk (fun _ _ => .inr rfl) []
  have h2 := C70_round_trip false ls hl (fun _ _ => .inr rfl) []
  rw [h, h2] at h1
  injection h1 with h1
  exact (Prod.mk.inj h1).1.symm

/-- Keys are sorted by whether the first one has Alt or Ctrl. -/
theorem C70_place (ks : List Nat) : sort ks = place ks * 65536 := by
  have key : ∀ l : List Nat, sortLoop 4 l = 4 + (match (l.dropWhile (· = 27)).head? with | some c => if isCtrl c then 2 else 0 | none => 0) := by
    intro l
    induction l with
    | nil => rfl
    | cons c l ih =>
      rw [sortLoop]
      by_cases h : c = 27
      · rw [if_pos h, List.dropWhile_cons_of_pos (by simpa using h)]
        exact ih
      · rw [if_neg h, List.dropWhile_cons_of_neg (by simpa using h)]
        simp only [List.head?_cons]
        by_cases hc : isCtrl c
        · rw [if_pos hc, if_pos (show c < 32 ∨ c = 127 from hc)]; rfl
        · rw [if_neg hc, if_neg (show ¬ (c < 32 ∨ c = 127) from hc)]
  unfold sort place
  congr 1
  cases ks with
  | nil => rfl
  | cons c l =>
    rw [sortLoop]
    by_cases h : c = 27
    · have hh : (c :: l).head? = some 27 := by simp [h]
      rw [if_pos h, List.dropWhile_cons_of_pos (by simpa using h), if_pos hh]
      exact key l
    · have hh : ¬ ((c :: l).head? = some 27) := by simpa using h
      rw [if_neg h, List.dropWhile_cons_of_neg (by simpa using h), if_neg hh]
      show _ = 0 + (if isCtrl c then 2 else 0)
      by_cases hc : isCtrl c
      · rw [if_pos hc, if_pos (show c < 32 ∨ c = 127 from hc)]; rfl
      · rw [if_neg hc, if_neg (show ¬ (c < 32 ∨ c = 127) from hc)]

/-! What differs -/

/-- `C-\` is written as `\C-\`, with one backslash: at the end, the closing quote is taken for a part of the name, and the line is
refused. -/
theorem C70_backslash_violated (conv : Bool) (ks : List Nat) (h : 28 ∉ ks) (h2 : ks ≠ [27]) (rest : Text) (hr : 34 ∉ rest) :
    bound conv (name (ks ++ [28]) ++ rest) = none := by
  have hb : body (ks ++ [28]) = ks.flatMap one ++ [92, 67, 45, 92] := by
    unfold body
    split
    · rename_i a b hab
      have : ks = [a] ∧ b = 28 := by
        match ks, hab with
        | [x], hab => simp at hab; exact ⟨by rw [hab.1], hab.2.symm⟩
        | [], hab => simp at hab
        | _ :: _ :: _, hab => simp at hab
      obtain ⟨rfl, rfl⟩ := this
      have hC : ¬ (a = 27 ∧ 28 ≠ 27) := fun h => h2 (by rw [h.1])
      rw [if_neg hC]
      simp
      rfl
    · rw [List.flatMap_append]; rfl
  have e : name (ks ++ [28]) ++ rest = 34 :: (ks.flatMap one ++ 92 :: 67 :: 45 :: 92 :: 34 :: rest) := by simp [name, hb]
  rw [e]
  show (quoted _).map _ = _
  rw [quoted_keys ks h]
  have : quoted (92 :: 67 :: 45 :: 92 :: 34 :: rest) = none := by
    show (((quoted rest).map _).map _).map _ = none
    rw [quoted_none rest hr]; rfl
  rw [this]; rfl

/-- Before another key, it takes that key away: `C-\ a` becomes `C-g`; before ESC it is read, but ESC is not. -/
theorem C70_backslash_taken_violated :
    name [28, 97] = txt "\"\\C-\\a\"" ∧ bound false (name [28, 97] ++ txt ": abort") = some ([7], txt ": abort") ∧
    bound false (name [28, 27] ++ txt ": abort") = some ([28, 101], txt ": abort") := by
  decide +kernel

/-- A byte beyond 127 after ESC loses its highest bit. -/
theorem C70_meta_violated (conv : Bool) (c : Nat) (h1 : 128 ≤ c) (h2 : c < 256) (rest : Text) :
    bound conv (name [27, c] ++ rest) = some ([27, c - 128], rest) := by
  have h27 : c ≠ 27 := by omega
  have h32 : ¬ c < 32 := by omega
  have h127 : c ≠ 127 := by omega
  have hq : ¬ (c = 92 ∨ c = 34) := by omega
  have hone : one c = [c] := by
    unfold one
    rw [if_neg h27, if_neg h32, if_neg h127, if_neg hq]
  have e : name [27, c] ++ rest = 34 :: 92 :: 77 :: 45 :: c :: 34 :: rest := by
    have hb : body [27, c] = txt "\\M-" ++ one c := if_pos ⟨rfl, h27⟩
    unfold name
    rw [hb, hone]
    rfl
  rw [e]
  show ((quoted (45 :: c :: 34 :: rest)).map _).map _ = _
  rw [quoted_plain _ _ (by decide) (by decide), quoted_plain _ _ (by omega) (by omega)]
  have : quoted (34 :: rest) = some ([], rest) := rfl
  rw [this]
  show some (loop conv (3 + 1 + 1) false false (92 :: 77 :: 45 :: c :: []), rest) = _
  rw [loop_meta, loop_plain _ _ _ _ _ _ (by omega)]
  have : c % 128 = c - 128 := by omega
  simp [put, loop, this]

/-! Examples -/

example : name [27, 24] = txt "\"\\M-\\C-x\"" := by decide +kernel
example : Nameable [27, 24] := ⟨by decide, by intro c h; simp at h; omega⟩
example : bound false (name [27, 24] ++ txt ": undo") = some ([27, 24], txt ": undo") := by decide +kernel
example : Nameable [27, 91, 49, 59, 53, 65] := ⟨by decide, by intro c h; simp at h⟩
example : name [27, 91, 49, 59, 53, 65] = txt "\"\\e[1;5A\"" := by decide +kernel
example : bound false (txt "\"\\e[1;5A\": x") = some ([27, 91, 49, 59, 53, 65], txt ": x") := by decide +kernel
example : name [24, 34, 92, 127, 0, 195, 169] = txt "\"\\C-x\\\"\\\\\\C-?\\C-@" ++ [195, 169, 34] := by decide +kernel
example : bound false (name [24, 34, 92, 127, 0, 195, 169]) = some ([24, 34, 92, 127, 0, 195, 169], []) := by decide +kernel
-- With `convert-meta on`, bytes beyond 127 become two keys.
example : bound true (name [195]) = some ([27, 67], []) := by decide +kernel
example : bound false (name [28] ++ txt ": abort") = none := by decide +kernel
example : bound false (txt "\"\\C-\\\\\": abort") = some ([28], txt ": abort") := by decide +kernel
example : translate false (txt "\\101\\x4a\\xz\\d\\M-\\C-a\\C-") = [65, 74, 120, 122, 127, 27, 1, 0] := by decide +kernel
example : sort [27, 24] = 6 * 65536 ∧ sort [27, 91] = 4 * 65536 ∧ sort [24, 27] = 2 * 65536 := by decide +kernel

end Clink.KeyNames
