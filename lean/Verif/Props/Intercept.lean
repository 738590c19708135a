import Verif.Proof.InterceptHistory

/-! C50: directory shortcuts and the directory history. -/

namespace Clink.Intercept

open Spec

def demo : Os where
  expand := fun l => if l = Color.bs "%up%\\x/" then Color.bs "..\\x/" else l
  alias := fun l => l == Color.bs "chdir"
  home := fun l => Color.bs "c:\\Users\\me" ++ l.drop 1
  dir := fun l => l == Color.bs "D:/a b/" || l == Color.bs "..\\x/" || l == Color.bs "c:\\Users\\me" || l == Color.bs "c:\\Users\\me/doc\\" || l == Color.bs "..\\../..\\" || l == Color.bs "z:\\"
  remote := fun l => l == Color.bs "z:\\"
  noRemote := false
  cwd := Color.bs "C:\\here"

/-- What a line becomes is exactly what the description says, in every mode. -/
theorem C50_intercept (os : Os) (line : List Nat) (mode : Mode) (r : Result × Option (List Nat)) : intercept os line mode = r ↔ Intercepts os line mode r :=
  ⟨fun h => h ▸ intercept_go os line mode, fun h => intercept_unique (intercept_go os line mode) h⟩

example : intercept demo (Color.bs " \"d:/a b/\" ") .normal = (.none, none) := by decide +kernel
example : intercept demo (Color.bs " \"D:/a b/\" ") .normal = (.chdir, some (Color.bs " D: & cd \"D:\\a b\\\"")) := by decide +kernel
example : intercept demo (Color.bs "%up%\\x/") .normal = (.chdir, some (Color.bs " cd \"..\\x\\\"")) := by decide +kernel
example : intercept demo (Color.bs "~") .normal = (.chdir, some (Color.bs " cd \"c:\\Users\\me\"")) := by decide +kernel
example : intercept demo (Color.bs "~/doc\\") .normal = (.chdir, some (Color.bs " cd \"c:\\Users\\me\\doc\\\"")) := by decide +kernel
example : intercept demo (Color.bs "..\\../..") .normal = (.chdir, some (Color.bs " cd \"..\\..\\..\\\"")) := by decide +kernel
example : intercept demo (Color.bs "cd\\") .normal = (.none, none) := by decide +kernel
example : intercept demo (Color.bs "..\\x/ & dir") .normal = (.none, none) := by decide +kernel

/-- What a line is about: one word, without quotes and carets, variables expanded. -/
theorem C50_token (os : Os) (line t : List Nat) : lineToken os line = some t ↔ Token os line t := token_iff os line t

example : lineToken demo (Color.bs "  a\" b\"^c\\ ") = some (Color.bs "a bc\\") := by decide +kernel
example : lineToken demo (Color.bs "a b") = none := by decide +kernel
example : lineToken demo (Color.bs "\"a&b\"") = some (Color.bs "a&b") := by decide +kernel

/-- `-` and `cd -` and so on are exactly these lines. -/
theorem C50_dash (os : Os) (line : List Nat) (only : Bool) : isCdDash os line only = true ↔ Dash os only line := cdDash_iff os line only

example : isCdDash demo (Color.bs " CD /D\t- ") true = true := by decide +kernel
example : isCdDash demo (Color.bs "cd/d -") true = true := by decide +kernel
example : isCdDash demo (Color.bs "chdir -") true = false := by decide +kernel
example : isCdDash demo (Color.bs "chdir -") false = true := by decide +kernel
example : isCdDash demo (Color.bs "cd -x") false = false := by decide +kernel

/-- Two or more dots go up, one directory less than there are dots, whatever directories there are. -/
theorem C50_dots (os : Os) (mode : Mode) (hm : mode ≠ .only_cd_chdir) (a b s : List Nat) (n : Nat) (hn : 2 ≤ n) (ha : Blanks a) (hb : Blanks b) (hs : s = [] ∨ s = [47] ∨ s = [92]) :
    intercept os (a ++ List.replicate n 46 ++ s ++ b) mode = (.chdir, some (Color.bs " cd \"" ++ (List.replicate (n - 1) (Color.bs "..\\")).flatten ++ Color.bs "\"")) := by
  have hsm : ∀ x ∈ s, x = 47 ∨ x = 92 := by rcases hs with rfl | rfl | rfl <;> simp
  have hw : ∀ x ∈ List.replicate n 46 ++ s, x = 46 ∨ x = 47 ∨ x = 92 := by
    intro x hx
    rcases List.mem_append.1 hx with hx | hx
    · exact .inl (List.eq_of_mem_replicate hx)
    · exact .inr (hsm x hx)
  have hmarks : ∀ (w : List Nat), (∀ x ∈ w, x = 46 ∨ x = 47 ∨ x = 92) → ∀ x ∈ marks false w, (x.1 = 46 ∨ x.1 = 47 ∨ x.1 = 92) := by
    intro w
    induction w with
    | nil => intro _ x hx; cases hx
    | cons c w ih =>
      intro h x hx
      have hc := h c (by simp)
      rw [marks, if_neg (by omega)] at hx
      rcases List.mem_cons.1 hx with rfl | hx
      · exact hc
      · exact ih (fun y hy => h y (by simp [hy])) x hx
  have hkept : ∀ (last : Bool) (w : List Nat), (∀ x ∈ w, x = 46 ∨ x = 47 ∨ x = 92) → kept last (marks false w) = w := by
    intro last w
    induction w with
    | nil => intro _; rfl
    | cons c w ih =>
      intro h
      have hc := h c (by simp)
      rw [marks, if_neg (by omega), kept, if_neg (by omega), ih fun y hy => h y (by simp [hy])]
  have hone : OneWord (a ++ List.replicate n 46 ++ s ++ b) a (List.replicate n 46 ++ s) b := by
    refine ⟨by simp, ha, hb, ?_, ?_, ?_, ?_⟩
    · intro _
      rw [List.count_eq_zero_of_not_mem]
      intro h
      have := hw _ h
      omega
    · intro c hc
      rcases hw c hc with rfl | rfl | rfl <;> decide
    · intro x hx _
      rcases hmarks _ hw x hx with h | h | h <;> rw [h] <;> decide
    · intro p c s' he hc hp
      have : p = [] := by
        cases p with
        | nil => rfl
        | cons y p =>
          have hy := hw y (by rw [he]; simp)
          have := hp y (by simp)
          rcases hy with rfl | rfl | rfl <;> exact absurd (by decide) this
      subst this
      decide
  have htok : Token os (a ++ List.replicate n 46 ++ s ++ b) (List.replicate n 46 ++ s) := by
    refine ⟨a, _, b, hone, ?_, ?_⟩
    · intro h
      have := congrArg List.length h
      simp at this
      omega
    · rw [if_neg, hkept _ _ hw]
      intro h
      have := hw _ h
      omega
  have hdots : Dots n (List.replicate n 46 ++ s) := by
    rcases hs with rfl | rfl | rfl
    · left; simp
    · right; exact ⟨47, .inl rfl, rfl⟩
    · right; exact ⟨92, .inr rfl, rfl⟩
  have hall : ∀ x ∈ a ++ List.replicate n 46 ++ s ++ b, x ≠ 45 := by
    intro x hx
    simp only [List.mem_append] at hx
    rcases hx with ((hx | hx) | hx) | hx
    · have := ha x hx; omega
    · have := List.eq_of_mem_replicate hx; omega
    · have := hsm x hx; omega
    · have := hb x hx; omega
  rw [C50_intercept]
  have hback : ((List.replicate (n - 1) (Color.bs "..\\")).flatten.map fun c => if c = 47 then 92 else c) = (List.replicate (n - 1) (Color.bs "..\\")).flatten := by
    have : ∀ x ∈ (List.replicate (n - 1) (Color.bs "..\\")).flatten, x ≠ 47 := by
      intro x hx
      obtain ⟨l, hl, hx⟩ := List.mem_flatten.1 hx
      rw [List.eq_of_mem_replicate hl] at hx
      rintro rfl
      revert hx
      decide
    conv => rhs; rw [← List.map_id (List.replicate (n - 1) (Color.bs "..\\")).flatten]
    apply List.map_congr_left
    intro x hx
    rw [if_neg (this x hx)]
    rfl
  refine .chdir ?_ hm htok (.dots hn hdots) ?_
  · intro h
    generalize a ++ List.replicate n 46 ++ s ++ b = l at hall h
    cases h <;> exact hall 45 (by simp) rfl
  · rw [hback]
    refine .here fun c hc => ?_
    obtain ⟨m, hm⟩ : ∃ m, n - 1 = m + 1 := ⟨n - 2, by omega⟩
    rw [hm, List.replicate_succ, List.flatten_cons, show Color.bs "..\\" = [46, 46, 92] by decide] at hc
    rw [← drive_iff, getDrive, List.cons_append, List.cons_append, past_plain (by decide)] at hc
    simp at hc

example : intercept demo (Color.bs " .../ ") .no_remote = (.chdir, some (Color.bs " cd \"..\\..\\\"")) := by decide +kernel

/-- Everything from the line is within quotes in the command. -/
theorem C50_quoted (os : Os) (line cmd : List Nat) (mode : Mode) (r : Result) (he : ∀ t, 34 ∉ t → 34 ∉ os.expand t) (hh : ∀ t, 34 ∉ t → 34 ∉ os.home t)
    (h : intercept os line mode = (r, some cmd)) :
    ∃ pre dir, cmd = pre ++ [34] ++ dir ++ [34] ∧ 34 ∉ dir ∧ (pre = Color.bs " cd " ∨ ∃ c, (65 ≤ c ∧ c ≤ 90 ∨ 97 ≤ c ∧ c ≤ 122) ∧ pre = [32, c] ++ Color.bs ": & cd ") := by
  rw [C50_intercept] at h
  cases h with
  | @chdir t d _ h1 h2 h3 h4 h5 =>
    have hk : ∀ (last : Bool) (l : List (Nat × Bool)), 34 ∉ kept last l := by
      intro last l
      induction l with
      | nil => simp [kept]
      | cons x l ih =>
        obtain ⟨c, q⟩ := x
        rw [kept]
        split
        · exact ih
        · rename_i hc
          intro h
          rcases List.mem_cons.1 h with h | h
          · exact hc (.inl h.symm)
          · exact ih h
    have ht : 34 ∉ t := by
      obtain ⟨a, w, b, -, -, ht⟩ := h3
      rw [ht]
      split
      · exact he _ (hk _ _)
      · exact hk _ _
    have hd : 34 ∉ d := by
      cases h4 with
      | dots =>
        intro h
        obtain ⟨l, hl, hx⟩ := List.mem_flatten.1 h
        rw [List.eq_of_mem_replicate hl] at hx
        revert hx
        decide
      | @dir t' _ _ i1 i2 =>
        have ht' : 34 ∉ t' := by
          rcases i1 with ⟨-, rfl⟩ | ⟨-, rfl⟩
          · exact ht
          · simpa using ht
        cases i2 with
        | home => exact hh _ ht'
        | below => exact hh _ ht'
        | other => exact ht'
    have hd' : 34 ∉ d.map fun c => if c = 47 then 92 else c := by
      intro h
      obtain ⟨x, hx, h⟩ := List.mem_map.1 h
      split at h
      · omega
      · exact hd (h ▸ hx)
    cases h5 with
    | here => exact ⟨Color.bs " cd ", _, by rw [show Color.bs " cd \"" = Color.bs " cd " ++ [34] by decide]; rfl, hd', .inl rfl⟩
    | @drive c i1 i2 =>
      refine ⟨[32, c] ++ Color.bs ": & cd ", _, ?_, hd', .inr ⟨c, ?_, rfl⟩⟩
      · rw [show Color.bs " & cd \"" = Color.bs " & cd " ++ [34] by decide, show Color.bs ": & cd " = [58] ++ Color.bs " & cd " by decide, show Color.bs " " = [32] by decide,
          show Color.bs "\"" = [34] by decide]
        simp
      · generalize (d.map fun c => if c = 47 then 92 else c) = l at i1
        cases i1 with
        | plain h => exact h
        | long _ _ _ _ h => exact h

example : (∀ t, 34 ∉ t → 34 ∉ demo.expand t) ∧ (∀ t, 34 ∉ t → 34 ∉ demo.home t) := by
  constructor
  · intro t h
    dsimp only [demo]
    split
    · decide
    · exact h
  · intro t h h'
    dsimp only [demo] at h'
    rcases List.mem_append.1 h' with h' | h'
    · revert h'; decide
    · exact h (List.mem_of_mem_drop h')

/-- What the line is coloured as is what happens, unless the directory is on another computer. -/
theorem C50_colour (os : Os) (line : List Nat) :
    (∀ r c, intercept os line .no_remote = (r, c) → r ≠ .none → intercept os line .normal = (r, c)) ∧
    ((∀ d, os.remote d = false) → intercept os line .no_remote = intercept os line .normal) := by
  constructor
  · intro r c h hr
    rw [C50_intercept] at h ⊢
    cases h with
    | prev h => exact .prev h
    | none => exact absurd rfl hr
    | chdir h1 h2 h3 h4 h5 =>
      refine .chdir h1 (by simp) h3 ?_ h5
      cases h4 with
      | dots hn h => exact .dots hn h
      | dir i1 i2 i3 i4 => exact .dir i1 i2 i3 i4 (by simp)
  · intro h
    rw [C50_intercept]
    have h0 := intercept_go os line .normal
    generalize intercept os line .normal = r at h0
    have names : ∀ t d, Names os .normal t d ↔ Names os .no_remote t d := by
      intro t d
      constructor
      · intro h4
        cases h4 with
        | dots hn h => exact .dots hn h
        | dir i1 i2 i3 i4 => exact .dir i1 i2 i3 i4 (by simp [h])
      · intro h4
        cases h4 with
        | dots hn h => exact .dots hn h
        | dir i1 i2 i3 i4 => exact .dir i1 i2 i3 i4 (by simp)
    cases h0 with
    | prev h => exact .prev h
    | chdir h1 h2 h3 h4 h5 => exact .chdir h1 (by simp) h3 ((names _ _).1 h4) h5
    | none h1 h2 =>
      refine .none h1 ?_
      rintro - ⟨t, d, h3, h4⟩
      exact h2 (by simp) ⟨t, d, h3, (names _ _).2 h4⟩

example : intercept demo (Color.bs "~") .no_remote = (.chdir, some (Color.bs " cd \"c:\\Users\\me\"")) := by decide +kernel
example : intercept demo (Color.bs "z:\\") .no_remote = (.none, none) ∧ intercept demo (Color.bs "z:\\") .normal = (.chdir, some (Color.bs " z: & cd \"z:\\\"")) := by decide +kernel

/-- `cd -` goes to the most recent directory that is not the current one, however duplicates were treated at each prompt; it is shown as it was at some prompt. -/
theorem C50_previous (max : Nat) (hm : 2 ≤ max) (steps : List (Bool × List Nat)) :
    match prevDir (run max steps) with
    | none => ¬ ∃ d, Previous (steps.map (·.2)) d
    | some p => p ∈ steps.map (·.2) ∧ ∃ d, Previous (steps.map (·.2)) d ∧ lower p = lower d ∧ ∀ d', Previous (steps.map (·.2)) d' → d' = d := by
  rcases inv_run hm steps with ⟨h1, h2⟩ | ⟨v, cwd, g, y, h1, h2, h3, h4⟩
  · rw [h1, h2]
    rintro ⟨d, a, b, c, h, -⟩
    simp at h
  · rw [h2, prevDir_snoc]
    rcases h4 with ⟨rfl, h5⟩ | ⟨g', p, d, rfl, h5, h6, h7⟩
    · rintro ⟨d, a, b, c, i1, i2, i3⟩
      rw [h1] at i1
      have ec : cwd = c := by simpa using List.append_inj_right' i1 rfl
      have ev := List.append_inj_left' i1 rfl
      subst ec
      exact i2 (h5 d (by rw [ev]; simp))
    · rw [List.getLast?_append]
      dsimp only [List.getLast?_singleton, Option.some_or]
      refine ⟨?_, d, h5, h6, fun d' h' => previous_unique h' h5⟩
      have := run_sub max steps
      rw [h2] at this
      exact this.subset (by simp)

example : prevDir (run 100 [(false, [97]), (false, [98]), (true, [97]), (false, [65])]) = some [98] := by decide +kernel
example : prevDir (run 100 [(false, [97]), (true, [65])]) = none := by decide +kernel

/-- There are at most 100 directories, in the order of the visits. -/
theorem C50_history (max : Nat) (steps : List (Bool × List Nat)) : (run max steps).length ≤ max ∧ (run max steps).Sublist (steps.map (·.2)) :=
  ⟨run_length max steps, run_sub max steps⟩

/-- Adding: every move is there, the newest 100. -/
theorem C50_add (max : Nat) (hm : 1 ≤ max) (steps : List (Bool × List Nat)) (hs : ∀ s ∈ steps, s.1 = false) : run max steps = newest max (moves (steps.map (·.2))) := run_add hm steps hs

example : run 3 [(false, [97]), (false, [98]), (false, [66]), (false, [97]), (false, [99])] = [[98], [97], [99]] := by decide +kernel

/-- Erasing: every directory is there once, where it was visited last, the newest 100. -/
theorem C50_erase (max : Nat) (hm : 1 ≤ max) (steps : List (Bool × List Nat)) (hs : ∀ s ∈ steps, s.1 = true) :
    run max steps = newest max (latest (steps.map (·.2))) ∧ (run max steps).Pairwise fun a b => lower a ≠ lower b := by
  refine ⟨run_erase hm steps hs, ?_⟩
  rw [run_erase hm steps hs, newest_drop]
  exact (latest_distinct _).sublist (List.drop_sublist _ _)

example : run 2 [(true, [97]), (true, [98]), (true, [66]), (true, [97]), (true, [99])] = [[97], [99]] := by decide +kernel

/-- A caret that is itself behind a caret is lost too, so that a directory with a caret in its name is missed. -/
theorem C50_caret_violated : ∃ os : Os, os.dir (Color.bs "a^b\\") = true ∧ lineToken os (Color.bs "a^^b\\") = some (Color.bs "ab\\") ∧ intercept os (Color.bs "a^^b\\") .normal = (.none, none) :=
  ⟨{ demo with dir := fun l => l == Color.bs "a^b\\" }, by decide +kernel⟩

/-- A quote behind a caret starts quoting, so that `&` behind it does not separate commands. -/
theorem C50_caret_quote_violated : ∃ os : Os, intercept os (Color.bs "^\"a&b\\") .normal = (.chdir, some (Color.bs " cd \"a&b\\\"")) :=
  ⟨{ demo with dir := fun l => l == Color.bs "a&b\\" }, by decide +kernel⟩

/-- A text with a colon as its second character counts as having a drive for the test of remote directories, but not for the command. -/
theorem C50_drive_letter : hasColon (Color.bs "1:\\x\\") = true ∧ getDrive (Color.bs "1:\\x\\") = none := by decide +kernel

end Clink.Intercept
