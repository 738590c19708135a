import Verif.Proof.Autorun

/-! C26: the AutoRun value of cmd.exe. -/

namespace Clink.Autorun

open Spec
open Color (bs)

/-- A value that does not call the program is not changed. -/
theorem C26_foreign {u : List Nat} (h : Foreign u) (ty : Nat) (mine : Option (List Nat → Bool)) : uninstall mine (some ⟨ty, u⟩) = some ⟨ty, u⟩ := by
  unfold uninstall
  cases hv : getValue (some ⟨ty, u⟩) with
  | none => rfl
  | some v =>
    have : v = u := by
      unfold getValue at hv
      simp only [Option.bind_some] at hv
      split at hv
      · cases hv; rfl
      · cases hv
    subst this
    simp only
    rw [find_foreign h]

/-- The entry is removed with the `&` before it, and nothing else but gaps at the beginning. -/
theorem C26_removed {pre k e rest : List Nat} (hk : Kept pre k) (he : IsEntry e) (hr : rest = [] ∨ ∃ b, rest = 38 :: b) (fp : Foreign pre) (fr : Foreign rest)
    {ty : Nat} (hty : ty = 1 ∨ ty = 2) {mine : Option (List Nat → Bool)}
    (hm : ∀ m, mine = some m → ∀ x y, Calls e x y → ∃ sp p, x = sp ++ 34 :: p ∧ 34 ∉ p ∧ m p = true) {r : Option (List Nat)} (ht : Trimmed (k ++ rest) r) :
    uninstall mine (some ⟨ty, pre ++ e ++ rest⟩) = r.map fun w => ⟨1, w⟩ := by
  have hv : getValue (some ⟨ty, pre ++ e ++ rest⟩) = some (pre ++ e ++ rest) := by
    unfold getValue
    simp only [Option.bind_some]
    rw [if_pos hty]
  obtain ⟨-, t, hpre⟩ := kept_pre hk
  unfold uninstall
  rw [hv]
  simp only
  rw [find_entry hk he hr fp fr hm]
  simp only
  have h1 : (pre ++ e ++ rest).take k.length = k := by rw [hpre, List.append_assoc, List.append_assoc, List.take_left' rfl]
  have h2 : (pre ++ e ++ rest).drop (pre ++ e).length = rest := List.drop_left' rfl
  rw [h1, h2]
  generalize hl : k ++ rest = l at ht
  cases ht with
  | none h => rw [cmdStart_none h, if_pos rfl]; rfl
  | some h1 h2 h3 => rw [cmdStart_some h1 h3, if_neg h2]; rfl

/-- The entry of another directory is not removed when only entries of this one are to be removed. -/
theorem C26_other {u : List Nat} (ty : Nat) {m : List Nat → Bool} (h : ∀ x y, Calls u x y → ∃ sp p, x = sp ++ 34 :: p ∧ 34 ∉ p ∧ m p = false) :
    uninstall (some m) (some ⟨ty, u⟩) = some ⟨ty, u⟩ := by
  unfold uninstall
  cases hv : getValue (some ⟨ty, u⟩) with
  | none => rfl
  | some v =>
    have : v = u := by
      unfold getValue at hv
      simp only [Option.bind_some] at hv
      split at hv
      · cases hv; rfl
      · cases hv
    subst this
    simp only
    have : findEntry (some m) v = none := by
      unfold findEntry
      cases htag : findTag v needles with
      | none => rfl
      | some tag =>
        obtain ⟨n, hn, x, y, hx, rfl⟩ := findTag_some htag
        obtain ⟨sp, p, rfl, hp, hmp⟩ := h x y (calls_iff.2 ⟨n, hn, hx⟩)
        simp only
        rw [hx, List.append_assoc, dir_entry hp, hmp]
        rfl
    rw [this]

/-- The entry that is installed. -/
theorem entry_ok {path args : List Nat} (ha : 38 ∉ args)
    (hp : 38 ∉ path ∨ (34 ∉ path ∧ ∀ x y, Calls (entry path args) x y → x = bs "\"" ++ path ++ bs "\\")) : IsEntry (entry path args) := by
  have hcall : Calls (entry path args) (bs "\"" ++ path ++ bs "\\") (bs " --autorun" ++ if args = [] then [] else 32 :: args) := by
    refine ⟨bs "clink.bat", by simp, bs "\"", by simp, ?_⟩
    unfold entry
    simp only [List.append_assoc]
    rfl
  have ht : 38 ∉ (if args = [] then [] else 32 :: args) := by
    split
    · simp
    · simp [ha]
  refine ⟨fun h => h _ _ hcall, fun x y hc => ?_⟩
  rcases hp with hp | ⟨h34, hx⟩
  · have h38 : 38 ∉ entry path args := by
      unfold entry
      simp only [List.mem_append, not_or]
      exact ⟨⟨⟨by decide, hp⟩, by decide⟩, ht⟩
    obtain ⟨n, hn, hv⟩ := calls_iff.1 hc
    obtain ⟨n1, n2⟩ := needle_ok n hn
    rw [hv] at h38
    simp only [List.mem_append, not_or] at h38
    cases x with
    | nil =>
      exfalso
      have := congrArg List.head? hv
      cases n with
      | nil => cases n2
      | cons c n =>
        cases n2
        unfold entry at this
        simp only [List.append_assoc] at this
        exact absurd this (by simp [bs])
    | cons c x =>
      have : c = 34 := by
        have := congrArg List.head? hv
        unfold entry at this
        simp only [List.append_assoc] at this
        simpa [bs] using this.symm
      subst this
      refine ⟨h38.2, [], x, rfl, by simp, .inr fun h => h38.1.1 (List.mem_cons_of_mem _ h)⟩
  · have := hx x y hc
    subst this
    refine ⟨?_, [], path ++ bs "\\", by simp [bs], by simp, .inl (by simp [h34, bs])⟩
    obtain ⟨n, hn, hv⟩ := calls_iff.1 hc
    obtain ⟨n', hn', hv'⟩ := calls_iff.1 hcall
    have : n ++ y = bs "clink.bat\" inject" ++ (bs " --autorun" ++ if args = [] then [] else 32 :: args) := by
      have h1 : (bs "\"" ++ path ++ bs "\\") ++ (n ++ y) = (bs "\"" ++ path ++ bs "\\") ++ (bs "clink.bat\" inject" ++ (bs " --autorun" ++ if args = [] then [] else 32 :: args)) := by
        rw [← List.append_assoc, ← hv]
        unfold entry
        simp only [List.append_assoc]
        rfl
      exact List.append_cancel_left h1
    intro h
    have hmem : 38 ∈ n ++ y := List.mem_append_right _ h
    rw [this] at hmem
    simp only [List.mem_append] at hmem
    rcases hmem with h | h | h
    · exact absurd h (by decide)
    · exact absurd h (by decide)
    · exact ht h

theorem install_value {path args old : List Nat} (hfit : (entry path args).length < 2047) {v : Option Value} (hv : (getValue (uninstall none v)).getD [] = old) :
    install path args v = setValue (cmdStart ((if old = [] then [] else old ++ [38]) ++ entry path args)) := by
  unfold install
  simp only [hv]
  rw [List.take_of_length_le]
  split
  · simp only [List.nil_append]; omega
  · simp only [List.length_append, List.length_singleton]; omega

theorem entry_head (path args : List Nat) : (entry path args).head? = some 34 := by
  unfold entry
  simp [bs]

/-- The entry is installed at the end. -/
theorem C26_install {path args u : List Nat} (hfit : (entry path args).length < 2047) (hu : Foreign u) {ty : Nat} (hty : ty = 1 ∨ ty = 2)
    {r : Option (List Nat)} (ht : Trimmed u r) :
    install path args (some ⟨ty, u⟩) = some ⟨1, match r with | none => entry path args | some w => w ++ 38 :: entry path args⟩ := by
  rw [install_value hfit (old := u) (by rw [C26_foreign hu]; simp [getValue, hty])]
  unfold setValue
  congr 2
  have hgap : ∀ c, (entry path args).head? = some c → ¬ Gap c := by
    intro c hc
    rw [entry_head] at hc
    cases hc
    unfold Gap
    omega
  cases ht with
  | none h =>
    refine cmdStart_some ?_ hgap
    intro c hc
    split at hc
    · cases hc
    · rcases List.mem_append.1 hc with hc | hc
      · exact h c hc
      · cases List.mem_singleton.1 hc; exact .inr (.inr rfl)
  | some h1 h2 h3 =>
    rename_i lead w
    rw [if_neg (by simp [h2]), List.append_assoc, List.append_assoc]
    refine (cmdStart_some h1 ?_).trans (by simp)
    intro c hc
    obtain ⟨d, w', rfl⟩ := List.exists_cons_of_ne_nil h2
    exact h3 c (by simpa using hc)

theorem C26_install_missing {path args : List Nat} (hfit : (entry path args).length < 2047) : install path args none = some ⟨1, entry path args⟩ := by
  rw [install_value hfit (old := []) rfl]
  unfold setValue
  rw [if_pos rfl, List.nil_append]
  congr 2

theorem foreign_part {a b c : List Nat} (h : Foreign (a ++ b ++ c)) : Foreign b := by
  intro x y hc
  obtain ⟨n, hn, hv⟩ := calls_iff.1 hc
  exact h (a ++ x) (y ++ c) (calls_iff.2 ⟨n, hn, by rw [hv]; simp⟩)

theorem foreign_amp {a : List Nat} (h : Foreign a) : Foreign (a ++ [38]) := by
  intro x y hc
  obtain ⟨n, hn, hv⟩ := calls_iff.1 hc
  obtain ⟨n1, n2⟩ := needle_ok n hn
  have hne : n ≠ [] := by rintro rfl; cases n2
  rcases sep_infix (b := []) n1 hne hv with ⟨y', -, h2⟩ | ⟨x', -, h2⟩
  · exact h x y' (calls_iff.2 ⟨n, hn, h2⟩)
  · have := congrArg List.length h2
    have := List.length_pos_iff.2 hne
    simp only [List.length_nil, List.length_append] at *
    omega

theorem foreign_nil : Foreign [] := by
  intro x y hc
  obtain ⟨n, hn, hv⟩ := calls_iff.1 hc
  obtain ⟨n1, n2⟩ := needle_ok n hn
  have := (List.append_eq_nil_iff.1 (List.append_eq_nil_iff.1 hv.symm).1).2
  rw [this] at n2
  cases n2

/-- Installing and uninstalling gives back the value of the user, apart from gaps at the beginning and an `&` at the end. -/
theorem C26_restore {path args u : List Nat} (he : IsEntry (entry path args)) (hfit : (entry path args).length < 2047) (hu : Foreign u) {ty : Nat}
    (hty : ty = 1 ∨ ty = 2) {r : Option (List Nat)} (h : Core u r) : uninstall none (install path args (some ⟨ty, u⟩)) = r.map fun w => ⟨1, w⟩ := by
  have alone : uninstall none (some ⟨1, entry path args⟩) = none := by
    have := C26_removed (pre := []) (rest := []) .start he (.inl rfl) foreign_nil foreign_nil (ty := 1) (.inl rfl) (mine := none) (fun m h => by cases h) (r := none) (.none (by simp))
    simpa using this
  have behind : ∀ {pre k : List Nat}, Kept pre k → Foreign pre → k ≠ [] → (∀ c, k.head? = some c → ¬ Gap c) → uninstall none (some ⟨1, pre ++ entry path args⟩) = some ⟨1, k⟩ := by
    intro pre k hk hf hne hh
    have := C26_removed (rest := []) hk he (.inl rfl) hf foreign_nil (ty := 1) (.inl rfl) (mine := none) (fun m h => by cases h) (r := some k)
      (by rw [List.append_nil]; exact .some (lead := []) (by simp) hne hh)
    simpa using this
  cases h with
  | none hg =>
    rw [C26_install hfit hu hty (.none hg)]
    exact alone
  | some h1 h2 h3 h4 =>
    rename_i lead w
    rw [C26_install hfit hu hty (.some h1 h2 h3)]
    have hf : Foreign (w ++ [38]) := foreign_amp (foreign_part (a := lead) (c := []) (by simpa using hu))
    have := behind (.one h2 h4) hf h2 h3
    simpa using this
  | amp h1 h2 h3 =>
    rename_i lead w
    have ht : Trimmed (lead ++ (w ++ [38])) (some (w ++ [38])) := by
      refine .some h1 (by simp) ?_
      intro c hc
      obtain ⟨d, w', rfl⟩ := List.exists_cons_of_ne_nil h2
      exact h3 c (by simpa using hc)
    rw [← List.append_assoc] at ht
    rw [C26_install hfit hu hty ht]
    have hf : Foreign (w ++ [38, 38]) := by
      have := foreign_amp (foreign_part (a := lead) (b := w ++ [38]) (c := []) (by simpa using hu))
      simpa using this
    have := behind .two hf h2 h3
    simpa using this

/-- The usual case: nothing is lost. -/
theorem C26_exact {path args u : List Nat} (he : IsEntry (entry path args)) (hfit : (entry path args).length < 2047) (hu : Foreign u) (hne : u ≠ [])
    (hh : ∀ c, u.head? = some c → ¬ Gap c) (hl : u.getLast? ≠ some 38) : uninstall none (install path args (some ⟨1, u⟩)) = some ⟨1, u⟩ :=
  C26_restore he hfit hu (.inl rfl) (.some (lead := []) (by simp) hne hh hl)

theorem C26_missing {path args : List Nat} (he : IsEntry (entry path args)) (hfit : (entry path args).length < 2047) :
    uninstall none (install path args none) = none := by
  rw [C26_install_missing hfit]
  have := C26_removed (pre := []) (rest := []) .start he (.inl rfl) foreign_nil foreign_nil (ty := 1) (.inl rfl) (mine := none) (fun m h => by cases h) (r := none) (.none (by simp))
  simpa using this

/-- Installing twice is installing once: there is one entry, and it is the new one. -/
theorem C26_twice {path args path2 args2 u : List Nat} (he : IsEntry (entry path args)) (hfit : (entry path args).length < 2047) (hu : Foreign u) {ty : Nat}
    (hty : ty = 1 ∨ ty = 2) {r : Option (List Nat)} (h : Core u r) :
    install path2 args2 (install path args (some ⟨ty, u⟩)) = install path2 args2 (r.map fun w => ⟨1, w⟩) := by
  have h1 : uninstall none (install path args (some ⟨ty, u⟩)) = r.map fun w => ⟨1, w⟩ := C26_restore he hfit hu hty h
  have h2 : uninstall none (r.map fun w => (⟨1, w⟩ : Value)) = r.map fun w => ⟨1, w⟩ := by
    cases h with
    | none => rfl
    | @some lead w h1 h2 h3 h4 =>
      exact C26_foreign (foreign_part (a := lead) (c := []) (by simpa using hu)) 1 none
    | @amp lead w =>
      exact C26_foreign (foreign_part (a := lead) (c := [38]) hu) 1 none
  unfold install
  simp only
  have e : uninstall none (install path args (some ⟨ty, u⟩)) = uninstall none (r.map fun w => (⟨1, w⟩ : Value)) := by rw [h1, h2]
  unfold install at e
  simp only at e
  rw [e]

/-! ### Where commands are lost -/

/-- If the path is not in quotes, commands before it are removed as well. -/
theorem C26_unquoted : uninstall none (some ⟨1, bs "a.cmd & clink inject --autorun"⟩) = none ∧
    uninstall none (some ⟨1, bs "a.cmd & echo clink injects"⟩) = none ∧
    uninstall none (some ⟨1, bs "a.cmd & \"b.cmd\" & c.cmd & clink inject"⟩) = some ⟨1, bs "a.cmd "⟩ := by
  refine ⟨?_, ?_, ?_⟩ <;> decide +kernel

/-- If there is an `&` in the arguments, part of the entry is left. -/
theorem C26_args : uninstall none (install (bs "C:\\clink") (bs "--profile \"C:\\a&b\"") (some ⟨1, bs "a.cmd"⟩)) = some ⟨1, bs "a.cmd&b\""⟩ := by
  decide +kernel

/-- The type of the value is lost. -/
theorem C26_type : uninstall none (install (bs "C:\\clink") [] (some ⟨2, bs "%x%"⟩)) = some ⟨1, bs "%x%"⟩ := by
  decide +kernel

/-- A long entry is cut off: installing gives less than the entry. -/
theorem C26_long {path args : List Nat} (h : 2047 < (entry path args).length) : ∃ v, install path args none = some ⟨1, v⟩ ∧ v.length ≤ 2047 ∧ v ≠ entry path args := by
  refine ⟨cmdStart ((entry path args).take 2047), rfl, ?_, ?_⟩
  · unfold cmdStart
    exact Nat.le_trans (List.dropWhile_suffix _).length_le (by simp; omega)
  · intro he
    have h1 := congrArg List.length he
    have h2 : (cmdStart ((entry path args).take 2047)).length ≤ ((entry path args).take 2047).length := by
      unfold cmdStart
      exact (List.dropWhile_suffix _).length_le
    rw [List.length_take] at h2
    omega

def isAlpha (c : Nat) : Bool := (65 ≤ c && c ≤ 90) || (97 ≤ c && c ≤ 122)

/-- The directory of an entry is recognised, but not if it is the root of a drive. -/
theorem C26_root : sameDir isAlpha (·.map Color.lower) (bs "C:\\Clink") (bs "c:/clink\\") = true ∧ sameDir isAlpha (·.map Color.lower) (bs "C:") (bs "C:\\") = false := by
  refine ⟨?_, ?_⟩ <;> decide +kernel

/-! ### Examples -/

theorem sample_foreign : Foreign (bs "a.cmd & b.cmd") := by
  have h : findTag (bs "a.cmd & b.cmd") needles = none := by decide +kernel
  intro x y hc
  obtain ⟨n, hn, hv⟩ := calls_iff.1 hc
  exact findTag_none h n hn x y hv

example : IsEntry (entry (bs "C:\\clink") (bs "--quiet")) := entry_ok (by decide) (.inl (by decide))

/-- A path with `&`. -/
example : IsEntry (entry (bs "C:\\a & b") []) := by
  refine entry_ok (by decide) (.inr ⟨by decide, fun x y hc => ?_⟩)
  obtain ⟨n, hn, hv⟩ := calls_iff.1 hc
  -- the place of the only call
  have key : ∀ k ≤ (entry (bs "C:\\a & b") []).length, ∀ n ∈ needles, n.isPrefixOf ((entry (bs "C:\\a & b") []).drop k) = true → k = 10 := by decide +kernel
  have hlen : x.length ≤ (entry (bs "C:\\a & b") []).length := by rw [hv]; simp only [List.length_append]; omega
  have hk := key x.length hlen n hn (by rw [hv, List.append_assoc, List.drop_left' rfl, List.isPrefixOf_iff_prefix]; exact List.prefix_append _ _)
  have hx : (entry (bs "C:\\a & b") []).take x.length = x := by rw [hv, List.append_assoc, List.take_left' rfl]
  rw [← hx, hk]
  decide +kernel

example : uninstall none (install (bs "C:\\clink") (bs "--quiet") (some ⟨1, bs "a.cmd & b.cmd"⟩)) = some ⟨1, bs "a.cmd & b.cmd"⟩ :=
  C26_exact (entry_ok (by decide) (.inl (by decide))) (by decide +kernel) sample_foreign (by decide) (by intro c hc; cases hc; unfold Gap; decide) (by decide)

/-- An entry between commands. -/
example : uninstall none (some ⟨2, bs "a.cmd&& \"C:\\x\\clink.bat\" inject &b.cmd"⟩) = some ⟨1, bs "a.cmd&b.cmd"⟩ ∧
    uninstall (some (sameDir isAlpha (·.map Color.lower) (bs "c:\\x"))) (some ⟨1, bs "a.cmd&\"C:\\X\\clink_x64.exe\" inject"⟩) = some ⟨1, bs "a.cmd"⟩ ∧
    uninstall (some (sameDir isAlpha (·.map Color.lower) (bs "c:\\y"))) (some ⟨1, bs "a.cmd&\"C:\\X\\clink_x64.exe\" inject"⟩) =
      some ⟨1, bs "a.cmd&\"C:\\X\\clink_x64.exe\" inject"⟩ := by
  refine ⟨?_, ?_, ?_⟩ <;> decide +kernel

end Clink.Autorun
