import Verif.Proof.HistCmd

/-! C68: the command `clink history`.

`C68_command` and `C68_wrong` say which action the arguments give (options anywhere and shortened, verbs, options of bash), `C68_help` when it
is the help, `C68_delete` which line is deleted, `C68_listed` what is listed.  The `_violated` theorems are the cases where the code differs
from what the help and docs/clink.md say. -/

namespace Clink.HistCmd

open Spec (Short Help Plain Reads Opt IsDigits value joined bytes lowered Wish Asks Wrong)

/-- The action for a wish. -/
def actionOf (os : List Opt) : Wish → Action
  | .all => .list (os.contains .bare) 4294967295
  | .last n => .list (os.contains .bare) n
  | .clear => .clear
  | .delete n => .remove n
  | .add l => .add l
  | .expand l => .expand l
  | .compact none => .compact (os.contains .unique) (-1)
  | .compact (some n) => .compact (os.contains .unique) n

theorem dispatch_asks (f : Flags) (os : List Opt) (hb : f.bare = os.contains .bare) (hu : f.uniq = os.contains .unique) (ws : List Text)
    (w : Wish) (h : Asks ws w) : dispatch f ws = some [actionOf os w] := by
  cases h with
  | all => simp [dispatch, firstOpt, verbs, actionOf, hb]
  | last t hd hv =>
    have hv' : t.foldl (fun n c => n * 10 + (c - 48)) 0 < 4294967296 := by unfold value at hv; omega
    unfold dispatch
    rw [firstOpt_no _ _ (head_of_digits hd)]
    simp only [Option.map_some, verbs]
    rw [if_neg (verb_no (by decide) (not_digits (by decide) hd)), if_neg (verb_no (by decide) (not_digits (by decide) hd)),
      if_neg (verb_no (by decide) (not_digits (by decide) hd)), if_neg (verb_no (by decide) (not_digits (by decide) hd)),
      if_neg (verb_no (by decide) (not_digits (by decide) hd)), if_neg (by simp), tailCount_eq t hd.2 0 hv']
    simp [actionOf, hb, value]
  | clear v ws h =>
    unfold dispatch
    rw [firstOpt_no _ _ (head_of_lowered h (by decide))]
    simp only [Option.map_some, verbs]
    rw [if_pos (verb_yes (by decide) h)]; rfl
  | delete v t ws h hd hv =>
    unfold dispatch
    rw [firstOpt_no _ _ (head_of_lowered h (by decide))]
    simp only [Option.map_some, verbs]
    rw [if_neg (verb_other (by decide) h (by decide)), if_neg (verb_other (by decide) h (by decide)), if_pos (verb_yes (by decide) h),
      atoi_digits t hd hv]; rfl
  | deleteBack v t ws h hd hv =>
    unfold dispatch
    rw [firstOpt_no _ _ (head_of_lowered h (by decide))]
    simp only [Option.map_some, verbs]
    rw [if_neg (verb_other (by decide) h (by decide)), if_neg (verb_other (by decide) h (by decide)), if_pos (verb_yes (by decide) h),
      atoi_minus t hd hv]; rfl
  | add v ws h hj =>
    unfold dispatch
    rw [firstOpt_no _ _ (head_of_lowered h (by decide))]
    simp only [Option.map_some, verbs]
    rw [if_neg (verb_other (by decide) h (by decide)), if_neg (verb_other (by decide) h (by decide)),
      if_neg (verb_other (by decide) h (by decide)), if_pos (verb_yes (by decide) h), getLine_eq, if_neg hj]; rfl
  | expand v ws h hj =>
    unfold dispatch
    rw [firstOpt_no _ _ (head_of_lowered h (by decide))]
    simp only [Option.map_some, verbs]
    rw [if_neg (verb_other (by decide) h (by decide)), if_neg (verb_other (by decide) h (by decide)),
      if_neg (verb_other (by decide) h (by decide)), if_neg (verb_other (by decide) h (by decide)), if_pos (verb_yes (by decide) h),
      getLine_eq, if_neg hj]; rfl
  | compact v h =>
    unfold dispatch
    rw [firstOpt_no _ _ (head_of_lowered h (by decide))]
    simp only [Option.map_some, verbs]
    rw [if_neg (verb_other (by decide) h (by decide)), if_pos (verb_yes (by decide) h)]
    simp [actionOf, hu]
  | compactTo v t ws h hd hv =>
    unfold dispatch
    rw [firstOpt_no _ _ (head_of_lowered h (by decide))]
    simp only [Option.map_some, verbs]
    rw [if_neg (verb_other (by decide) h (by decide)), if_pos (verb_yes (by decide) h)]
    match t, hd, hv with
    | [], hd, _ => exact absurd rfl hd.1
    | c :: t, hd, hv =>
      have h1 := hd.2 c (by simp)
      have hC : ¬ (c < 48 ∨ c > 57) := by omega
      simp only []
      rw [if_neg hC, atoi_digits _ hd hv]
      simp [actionOf, hu]
  | bashClear ws => rfl
  | bashDelete t ws hd hv =>
    show some [Action.remove (atoi t)] = _
    rw [atoi_digits t hd hv]; rfl
  | bashDeleteBack t ws hd hv =>
    show some [Action.remove (atoi (45 :: t))] = _
    rw [atoi_minus t hd hv]; rfl
  | bashAdd ws hj =>
    show some [if getLine [] ws = [] then Action.help 1 else .add (getLine [] ws)] = _
    rw [getLine_eq, if_neg hj]; rfl
  | bashExpand ws hj =>
    show some [if getLine [] ws = [] then Action.help 1 else .expand (getLine [] ws)] = _
    rw [getLine_eq, if_neg hj]; rfl

theorem dispatch_wrong (f : Flags) (ws : List Text) (h : Wrong ws) : dispatch f ws = some [.help 1] := by
  cases h with
  | deleteWhat v h =>
    unfold dispatch
    rw [firstOpt_no _ _ (head_of_lowered h (by decide))]
    simp only [Option.map_some, verbs]
    rw [if_neg (verb_other (by decide) h (by decide)), if_neg (verb_other (by decide) h (by decide)), if_pos (verb_yes (by decide) h)]
  | addWhat v ws h hj =>
    unfold dispatch
    rcases h with h | h
    · rw [firstOpt_no _ _ (head_of_lowered h (by decide))]
      simp only [Option.map_some, verbs]
      rw [if_neg (verb_other (by decide) h (by decide)), if_neg (verb_other (by decide) h (by decide)),
        if_neg (verb_other (by decide) h (by decide)), if_pos (verb_yes (by decide) h), getLine_eq, if_pos hj]
    · rw [firstOpt_no _ _ (head_of_lowered h (by decide))]
      simp only [Option.map_some, verbs]
      rw [if_neg (verb_other (by decide) h (by decide)), if_neg (verb_other (by decide) h (by decide)),
        if_neg (verb_other (by decide) h (by decide)), if_neg (verb_other (by decide) h (by decide)), if_pos (verb_yes (by decide) h),
        getLine_eq, if_pos hj]
  | compactWhat v c t ws h hc =>
    unfold dispatch
    rw [firstOpt_no _ _ (head_of_lowered h (by decide))]
    simp only [Option.map_some, verbs]
    have hC : c < 48 ∨ c > 57 := by omega
    rw [if_neg (verb_other (by decide) h (by decide)), if_pos (verb_yes (by decide) h), if_pos hC]
  | noVerb v ws h0 hk h =>
    unfold dispatch
    rw [firstOpt_no _ _ h0]
    simp only [Option.map_some, verbs]
    rw [if_neg (verb_no (by decide) (hk "clear" (by simp))), if_neg (verb_no (by decide) (hk "compact" (by simp))),
      if_neg (verb_no (by decide) (hk "delete" (by simp))), if_neg (verb_no (by decide) (hk "add" (by simp))),
      if_neg (verb_no (by decide) (hk "expand" (by simp)))]
    by_cases hw : ws ≠ []
    · rw [if_pos hw]
    · rw [if_neg hw, tailCount_none v (h.resolve_left hw)]
  | noOption c t ws hc h45 =>
    have hC : ¬ (45 :: c :: t = txt "--") := by
      intro h
      have h' : 45 :: c :: t = [45, 45] := h
      simp only [List.cons.injEq, true_and] at h'
      exact h45 h'.1 h'.2
    have hc' : ¬ (c = 99 ∨ c = 112 ∨ c = 115) := by
      rintro (rfl | rfl | rfl) <;> exact hc (by decide)
    have h100 : c ≠ 100 := by rintro rfl; exact hc (by decide)
    have hb : firstOpt ((45 :: c :: t) :: ws) = some .bad := by
      unfold firstOpt
      simp only []
      rw [if_neg hC, if_neg hc']
    unfold dispatch
    rw [hb]; rfl
  | bashDeleteWhat => rfl
  | bashAddWhat v ws h hj =>
    rcases h with rfl | rfl
    · show some [if getLine [] ws = [] then Action.help 1 else .add (getLine [] ws)] = _
      rw [getLine_eq, if_pos hj]
    · show some [if getLine [] ws = [] then Action.help 1 else .expand (getLine [] ws)] = _
      rw [getLine_eq, if_pos hj]

/-- The flags are what the options say: for the format the last option counts, when the output is a console; when it is not and there is
just one, it is without escape codes. -/
structure Right (e : Env) (os : List Opt) (f : Flags) : Prop where
  bare : f.bare = os.contains .bare
  uniq : f.uniq = os.contains .unique
  diag : f.diag = os.contains .diag
  showtime : f.showtime = Spec.times os
  format : e.console = true → f.format = Spec.format os
  one : ∀ pre t post, os = pre ++ Opt.timeFormat t :: post → (∀ o ∈ pre ++ post, ∀ u, o ≠ .timeFormat u) → e.console = false →
    f.format = some (e.plain t)

theorem right_flags (e : Env) (os : List Opt) : Right e os (os.foldl (after e) {}) where
  bare := by rw [flags_bare]; simp
  uniq := by rw [flags_uniq]; simp
  diag := by rw [flags_diag]; simp
  showtime := flags_show e os {}
  format hc := flags_format e hc os {}
  one := by
    rintro pre t post rfl h hc
    rw [List.foldl_append, List.foldl_cons, flags_format_none e post (fun o ho => h o (by simp [ho]))]
    simp only [after, hc]
    rw [flags_format_none e pre (fun o ho => h o (by simp [ho]))]
    simp

/-- Arguments that can be read give the action that the words ask for, with the flags of the options. -/
theorem C68_command (e : Env) (args : List Text) (os : List Opt) (ws : List Text) (w : Wish) (hr : Reads args os ws) (ha : Asks ws w) :
    ∃ f, history e args = some ([actionOf os w], f) ∧ Right e os f := by
  refine ⟨os.foldl (after e) {}, ?_, right_flags e os⟩
  have h := options_reads e args os ws hr {} [] []
  rw [List.append_nil] at h
  unfold history
  rw [h]
  have hF := right_flags e os
  show (dispatch _ ([] ++ ws)).map _ = _
  rw [List.nil_append, dispatch_asks _ os hF.bare hF.uniq ws w ha]; rfl

/-- Words that ask for nothing give the help, and the result says that it failed. -/
theorem C68_wrong (e : Env) (args : List Text) (os : List Opt) (ws : List Text) (hr : Reads args os ws) (hw : Wrong ws) :
    ∃ f, history e args = some ([.help 1], f) := by
  refine ⟨os.foldl (after e) {}, ?_⟩
  have h := options_reads e args os ws hr {} [] []
  rw [List.append_nil] at h
  unfold history
  rw [h]
  show (dispatch _ ([] ++ ws)).map _ = _
  rw [List.nil_append, dispatch_wrong _ ws hw]; rfl

/-- `--help`, shortened or not, `-h` and `-?` give the help, wherever they are. -/
theorem C68_help (e : Env) (args : List Text) (os : List Opt) (ws : List Text) (hr : Reads args os ws) (a : Text) (ha : Help a)
    (more : List Text) : history e (args ++ a :: more) = some ([.help 0], {}) := by
  unfold history
  rw [options_reads e args os ws hr {} [] (a :: more), options_help _ _ _ _ _ ha]; rfl

/-- Deleting by number: from 1, or backwards from -1; the line at that place is what is removed, and the message has its number. -/
theorem C68_delete (ok : Nat → Bool) (ids : List Nat) (h0 : 0 ∉ ids) (hl : ids.length < 9223372036854775808) (n : Int)
    (hn : -2147483648 ≤ n) :
    match Spec.target ids.length n with
    | none => (remove ok ids n).code = 1 ∧ (remove ok ids n).id = none
    | some i => ∃ id, ids[i]? = some id ∧
        remove ok ids n = if ok id then ⟨0, some (true, i + 1), some id⟩ else ⟨1, some (false, i + 1), none⟩ := by
  have fin : ∀ id : Nat, id ∈ ids → ∀ k : Int, finish ok id k = if ok id then ⟨0, some (true, k), some id⟩ else ⟨1, some (false, k), none⟩ := by
    intro id hid k
    unfold finish
    rw [if_neg (by rintro rfl; exact h0 hid)]
  unfold Spec.target remove
  by_cases hz : n = 0
  · subst hz
    have hA : ¬ ((1 : Int) ≤ 0 ∧ (0 : Int) ≤ ids.length) := by omega
    have hB : ¬ (-(ids.length : Int) ≤ 0 ∧ (0 : Int) < 0) := by omega
    rw [if_neg hA, if_neg hB]
    exact ⟨rfl, rfl⟩
  rw [if_neg hz]
  by_cases hp : n > 0
  · rw [if_pos hp, advance_eq]
    by_cases hA : (1 : Int) ≤ n ∧ n ≤ ids.length
    · rw [if_pos hA]
      have hlt : n.toNat - 1 < ids.length := by omega
      refine ⟨ids[n.toNat - 1], List.getElem?_eq_getElem hlt, ?_⟩
      rw [List.headD_eq_head?_getD, List.head?_drop, List.getElem?_eq_getElem hlt, Option.getD_some, fin _ (List.getElem_mem hlt)]
      have : ((n.toNat - 1 : Nat) : Int) + 1 = n := by omega
      rw [this]
    · have hB : ¬ (-(ids.length : Int) ≤ n ∧ n < 0) := by omega
      rw [if_neg hA, if_neg hB]
      rw [List.drop_eq_nil_of_le (by omega)]
      exact ⟨rfl, rfl⟩
  · rw [if_neg hp]
    have hA : ¬ ((1 : Int) ≤ n ∧ n ≤ ids.length) := by omega
    rw [if_neg hA]
    simp only []
    by_cases hB : -(ids.length : Int) ≤ n ∧ n < 0
    · rw [if_pos hB]
      have hli : (((ids.length : Int) + n) % 18446744073709551616).toNat = ids.length - (-n).toNat := by
        rw [Int.emod_eq_of_lt (by omega) (by omega)]; omega
      rw [hli]
      have hlt : ids.length - (-n).toNat < ids.length := by omega
      have hC : ¬ (ids.length - (-n).toNat ≥ ids.length) := by omega
      refine ⟨ids[ids.length - (-n).toNat], List.getElem?_eq_getElem hlt, ?_⟩
      rw [if_neg hC, List.getD_eq_getElem?_getD, List.getElem?_eq_getElem hlt, Option.getD_some, fin _ (List.getElem_mem hlt)]
    · rw [if_neg hB]
      have hC : (((ids.length : Int) + n) % 18446744073709551616).toNat ≥ ids.length := by
        have : ((ids.length : Int) + n) % 18446744073709551616 = (ids.length : Int) + n + 18446744073709551616 := by
          rw [← Int.add_emod_right, Int.emod_eq_of_lt (by omega) (by omega)]
        rw [this]; omega
      rw [if_pos hC]
      exact ⟨rfl, rfl⟩

/-- The last lines are listed, in their order: each with its number in the whole history and, if times are shown, the time padded to the
width of the times, or with neither; on a console control characters are made visible. -/
theorem C68_listed (t : Times) (bare console : Bool) (tail : Nat) (lines : List (Text × Text)) (hl : lines.length < 4294967295) :
    let out := list t bare console tail lines
    out.length = min tail lines.length ∧
    ∀ (j : Nat) line stamp, (Spec.lastOf tail lines)[j]? = some (line, stamp) → ∃ num k,
      Spec.Numbered (lines.length - tail + j + 1) num ∧
      (let time := if stamp = [] then [] else t.format stamp
       k + t.cells time = max t.len (t.cells time) ∧
       out[j]? = some ((if bare then [] else num ++ if t.show_ then time ++ List.replicate k 32 else []) ++
         if console then line.flatMap Spec.visible else line)) := by
  have hs : skip tail lines.length = lines.length - tail := by
    unfold skip
    by_cases h : tail ≠ 4294967295
    · rw [if_pos h]; split <;> omega
    · rw [if_neg h]; omega
  refine ⟨?_, ?_⟩
  · unfold list
    rw [rows_length, hs, List.length_drop]; omega
  · intro j line stamp h
    refine ⟨number (lines.length - tail + j + 1), t.len - t.cells (if stamp = [] then [] else t.format stamp), number_spec _, by omega, ?_⟩
    unfold Spec.lastOf at h
    unfold list
    rw [hs, rows_get _ _ _ _ _ j line stamp h]
    have : lines.length - tail + 1 + j = lines.length - tail + j + 1 := by omega
    rw [this]
    unfold row timeOf
    rw [translate_eq]

/-- Times are shown as the options and the setting say, except (exactly) when the setting is to show them and the options say not to. -/
theorem C68_show (setting : Nat) (e : Env) (os : List Opt) (f : Flags) (h : Right e os f) :
    showTime setting f = Spec.timesShown setting os ↔ ¬ (setting = 2 ∧ Spec.times os = some false) := by
  unfold showTime Spec.timesShown
  rw [h.showtime]
  cases hm : Spec.times os with
  | none => simp
  | some b => cases b <;> simp

/-! What differs -/

def plainEnv : Env := ⟨true, id⟩
def redirected : Env := ⟨false, id⟩

/-- `--no-show-time` has no effect when the setting is to show times: the setting is read after the options. -/
theorem C68_show_violated : ∃ args os ws f, Reads args os ws ∧ history plainEnv args = some ([.list false 4294967295], f) ∧ Right plainEnv os f ∧
    showTime 2 f = true ∧ Spec.timesShown 2 os = false :=
  ⟨[bytes "--no-show-time"], [.noShowTime], [], { showtime := some false },
    .opt .noShowTime (by simp) ⟨by decide, [], by decide⟩ .nil, by decide +kernel, right_flags plainEnv [.noShowTime], by decide, by decide⟩

/-- `--time-format` as the last argument takes the argument before it away: the whole history is listed (or cleared...), and when the
output is redirected the null pointer is read. -/
theorem C68_time_violated :
    history plainEnv [bytes "5"] = some ([.list false 5], {}) ∧
    history plainEnv [bytes "5", bytes "--time-format"] = some ([.list false 4294967295], { showtime := some true, format := some [] }) ∧
    history plainEnv [bytes "--time-format"] = some ([.help 1], { showtime := some true, format := some [] }) ∧
    history redirected [bytes "5", bytes "--time-format"] = none := by
  decide +kernel

/-- What is to be added loses words that look like options, also after `-s`; a word like `-h` gives the help. -/
theorem C68_add_violated :
    history plainEnv [bytes "add", bytes "npm", bytes "audit", bytes "--diag"] = some ([.add (bytes "npm audit")], { diag := true }) ∧
    history plainEnv [bytes "-s", bytes "git", bytes "log", bytes "--no-show-time"] = some ([.add (bytes "git log")], { showtime := some false }) ∧
    history plainEnv [bytes "add", bytes "ls", bytes "-h"] = some ([.help 0], {}) := by
  decide +kernel

/-- Options of bash that are joined with other characters do two things. -/
theorem C68_joined_violated :
    history plainEnv [bytes "-sfoo"] = some ([.add (bytes "-sfoo"), .help 1], {}) ∧
    history plainEnv [bytes "-cx"] = some ([.clear, .help 1], {}) ∧
    history plainEnv [bytes "--"] = some ([], {}) := by
  decide +kernel

/-- The argument `-` reads beyond the string of options. -/
theorem C68_dash_violated : history plainEnv [bytes "-"] = none := by decide +kernel

/-- When the output is redirected, a second format is appended to the first one. -/
theorem C68_format_violated :
    history redirected [bytes "--time-format", bytes "%H", bytes "--time-format", bytes "%M"] =
      some ([.list false 4294967295], { showtime := some true, format := some (bytes "%H%M") }) ∧
    history plainEnv [bytes "--time-format", bytes "%H", bytes "--time-format", bytes "%M"] =
      some ([.list false 4294967295], { showtime := some true, format := some (bytes "%M") }) := by
  decide +kernel

/-- Large numbers wrap around. -/
theorem C68_number_violated :
    history plainEnv [bytes "4294967301"] = some ([.list false 5], {}) ∧ value (bytes "4294967301") = 4294967301 := by
  decide +kernel

/-! Examples -/

-- `history --ba 10 --time-f %H` : options anywhere and shortened.
theorem reads_ex : Reads [bytes "--ba", bytes "10", bytes "--time-f", bytes "%H"] [.bare, .timeFormat (bytes "%H")] [bytes "10"] := by
  refine .opt .bare (by simp) ⟨by decide, bytes "re", by decide⟩ (.word ?_ (.format _ ⟨by decide, bytes "ormat", by decide⟩ .nil))
  refine ⟨?_, ?_⟩
  · rintro (⟨h, _⟩ | h | h)
    · exact absurd h (by decide)
    · exact absurd h (by decide)
    · exact absurd h (by decide)
  · rintro o ⟨h, _⟩
    exact absurd h (by decide)
example : Asks [bytes "10"] (.last 10) := .last (bytes "10") ⟨by decide, by decide⟩ (by decide)
example : history plainEnv [bytes "--ba", bytes "10", bytes "--time-f", bytes "%H"] =
    some ([.list true 10], { bare := true, showtime := some true, format := some (bytes "%H") }) := by decide +kernel
example : Asks [bytes "Delete", bytes "-3"] (.delete (-3)) := .deleteBack (bytes "Delete") (bytes "3") [] (by decide) ⟨by decide, by decide⟩ (by decide)
example : history plainEnv [bytes "Delete", bytes "-3"] = some ([.remove (-3)], {}) := by decide +kernel
example : Asks [bytes "-d", bytes "12"] (.delete 12) := .bashDelete (bytes "12") [] ⟨by decide, by decide⟩ (by decide)
example : Asks [bytes "-s", [], bytes "git", bytes "log"] (.add (bytes "git log")) := .bashAdd [[], bytes "git", bytes "log"] (by decide)
example : history plainEnv [bytes "-s", [], bytes "git", bytes "log"] = some ([.add (bytes "git log")], {}) := by decide +kernel
example : history plainEnv [bytes "--uni", bytes "compact", bytes "100"] = some ([.compact true 100], { uniq := true }) := by decide +kernel
example : Wrong [bytes "list"] := .noVerb (bytes "list") [] (by decide) (by decide) (.inr ⟨108, by decide, by decide⟩)
example : history plainEnv [bytes "list"] = some ([.help 1], {}) := by decide +kernel
example : Wrong [bytes "--nothing"] := .noOption 45 (bytes "nothing") [] (by decide) (by decide)
example : Help (bytes "--he") := .inl ⟨by decide, bytes "lp", by decide⟩
example : history plainEnv [bytes "clear", bytes "--he"] = some ([.help 0], {}) := by decide +kernel
-- `--` and an option of two characters is none.
example : history plainEnv [bytes "--"] = some ([], {}) := by decide +kernel
example : remove (fun _ => true) [11, 22, 33] 2 = ⟨0, some (true, 2), some 22⟩ := by decide +kernel
example : remove (fun _ => true) [11, 22, 33] (-1) = ⟨0, some (true, 3), some 33⟩ := by decide +kernel
example : remove (fun _ => true) [11, 22, 33] (-4) = ⟨1, none, none⟩ := by decide +kernel
example : remove (fun _ => true) [11, 22, 33] 4 = ⟨1, some (false, 4), none⟩ := by decide +kernel
example : Spec.target 3 (-1) = some 2 := by decide +kernel
def clock : Times := ⟨true, 6, fun s => s ++ bytes "h ", List.length⟩
example : list clock false true 2 [(bytes "a", []), (bytes "b", bytes "12"), ([3, 9], [])] =
    [bytes "    2  12h   b", bytes "    3        ^C\t"] := by decide +kernel
example : list clock true false 4294967295 [(bytes "a", []), ([3, 9], [])] = [bytes "a", [3, 9]] := by decide +kernel
example : showTime 2 {} = true ∧ Spec.timesShown 2 [] = true := by decide
example : showTime 1 { showtime := some false } = false := by decide

end Clink.HistCmd
