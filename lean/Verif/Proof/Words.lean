import Verif.Spec.Words
import Verif.Proof.TokensWords

/-! Lemmas for the words of a command. -/

namespace Clink.Tokens

open Utf (more IsText specUtf8)
open Doskey (peek next Lookup)
open Doskey.Spec (flat)
open Tokens.Spec

theorem flat_append (a b : List Nat) : flat (a ++ b) = flat a ++ flat b := Doskey.flat_append a b

theorem flat_pos {c : Nat} {r : List Nat} (h : ∀ x ∈ c :: r, IsText x) : 0 < (flat (c :: r)).length := by
  have := more_cons h
  cases h1 : flat (c :: r) with
  | nil => rw [h1] at this; simp [more] at this
  | cons => simp

/-! Separators. -/

theorem isDelim_text {ds : List Nat} {c : Nat} (hc : IsText c) : isDelim ds c = true ↔ c ∈ ds := by
  have : c ≠ 0 := by unfold IsText at hc; omega
  simp [isDelim, this]

theorem wordDelims_eq : wordDelims = wordSeps := by decide
theorem nameDelims_eq' : nameDelims = nameSeps := by decide
theorem commandDelims_mem (c : Nat) : c ∈ commandDelims ↔ c ∈ 47 :: nameSeps := by
  have : commandDelims = [64, 32, 9, 61, 59, 44, 40, 47] := by decide
  rw [this]; simp [nameSeps]; omega

theorem getDelims_before (cw redir : Bool) : getDelims cw redir false = (kind cw redir).before := by
  cases cw <;> cases redir <;> simp [getDelims, kind, Kind.before, wordDelims_eq, nameDelims_eq']

theorem getDelims_ends (cw redir slash : Bool) (c : Nat) : c ∈ getDelims cw redir (!slash) ↔ c ∈ (kind cw redir).ends slash := by
  cases cw <;> cases redir <;> cases slash <;> simp [getDelims, kind, Kind.ends, wordDelims_eq, nameDelims_eq', commandDelims_mem]

theorem skipSeps_flat {ds : List Nat} (h94 : 94 ∉ ds) : ∀ (k : Nat) (cs : List Nat), cs.length ≤ k → (∀ c ∈ cs, IsText c) →
    ∃ s t, cs = s ++ t ∧ Seps ds s ∧ ¬ AtSep ds t ∧ skipSeps ds (flat cs) = flat t := by
  intro k
  induction k with
  | zero =>
    intro cs hk h
    have : cs = [] := List.length_eq_zero_iff.1 (Nat.le_zero.1 hk)
    subst this
    refine ⟨[], [], rfl, .nil, by simp [AtSep], ?_⟩
    unfold skipSeps; simp [flat, more]
  | succ k ih =>
    intro cs hk h
    cases cs with
    | nil =>
      refine ⟨[], [], rfl, .nil, by simp [AtSep], ?_⟩
      unfold skipSeps; simp [flat, more]
    | cons c cs =>
      have hcs : ∀ x ∈ cs, IsText x := fun x hx => h x (by simp [hx])
      unfold skipSeps
      rw [dif_pos (more_cons h), peek_cons h, next_cons h]
      by_cases hc : c = 94
      · rw [if_pos hc]
        subst hc
        cases cs with
        | nil =>
          rw [if_neg (by simp [flat, peek]; decide)]
          refine ⟨[], [94], rfl, .nil, ?_, rfl⟩
          rintro (⟨c', r, he, hm⟩ | ⟨r, he⟩)
          · exact h94 ((List.cons.inj he).1 ▸ hm)
          · simp at he
        | cons d cs =>
          rw [peek_cons hcs, next_cons hcs]
          by_cases hd : d = 32
          · subst hd
            rw [if_pos rfl]
            obtain ⟨s, t, h1, h2, h3, h4⟩ := ih cs (by simp at hk; omega) (fun x hx => hcs x (by simp [hx]))
            exact ⟨94 :: 32 :: s, t, by simp [h1], .caret h2, h3, h4⟩
          · rw [if_neg hd]
            refine ⟨[], 94 :: d :: cs, rfl, .nil, ?_, rfl⟩
            rintro (⟨c', r, he, hm⟩ | ⟨r, he⟩)
            · exact h94 ((List.cons.inj he).1 ▸ hm)
            · exact hd (by simp at he; exact he.1)
      · rw [if_neg hc]
        by_cases hd : isDelim ds c = true
        · rw [if_pos hd]
          obtain ⟨s, t, h1, h2, h3, h4⟩ := ih cs (by simp at hk; omega) hcs
          exact ⟨c :: s, t, by simp [h1], .char ((isDelim_text (h c (by simp))).1 hd) h2, h3, h4⟩
        · rw [if_neg hd]
          refine ⟨[], c :: cs, rfl, .nil, ?_, rfl⟩
          rintro (⟨c', r, he, hm⟩ | ⟨r, he⟩)
          · obtain ⟨rfl, rfl⟩ := List.cons.inj he
            exact hd ((isDelim_text (h c (by simp))).2 hm)
          · exact hc (List.cons.inj he).1


theorem before_94 (k : Kind) : 94 ∉ k.before := by cases k <;> decide

/-! The names of commands. -/

theorem builtins_iff (x : List Nat) : x ∈ internals ↔ x ∈ builtins := by
  have h1 : ∀ x ∈ internals, x ∈ builtins := by decide +kernel
  have h2 : ∀ x ∈ builtins, x ∈ internals := by decide +kernel
  exact ⟨h1 x, h2 x⟩

theorem builtins_ascii : ∀ x ∈ builtins, x.length ≤ 8 ∧ x ≠ [] ∧ ∀ c ∈ x, 97 ≤ c ∧ c ≤ 122 := by decide +kernel

theorem lower_eq (c : Nat) : lower c = lowerCase c := rfl

theorem unescape_pair (w : List Nat) (h : 94 ∉ unescape w) : ¬ [94, 94] <:+: w := by
  fun_induction unescape w with
  | case1 => simp
  | case2 => intro h1; have := h1.length_le; simp at this
  | case3 => intro h1; have := h1.length_le; simp at this
  | case4 d r ih =>
    simp only [List.mem_cons, not_or] at h
    intro h1
    rcases List.infix_cons_iff.1 h1 with h1 | h1
    · exact h.1 (List.cons_prefix_cons.1 (List.cons_prefix_cons.1 h1).2).1
    · rcases List.infix_cons_iff.1 h1 with h1 | h1
      · exact h.1 (List.cons_prefix_cons.1 h1).1
      · exact ih h.2 h1
  | case5 c d r hc ih =>
    simp only [List.mem_cons, not_or] at h
    intro h1
    rcases List.infix_cons_iff.1 h1 with h1 | h1
    · exact hc (List.cons_prefix_cons.1 h1).1.symm
    · exact ih h.2 h1

theorem unescape_of_pair (w : List Nat) (h : ¬ [94, 94] <:+: w) : unescape w = w.filter (· ≠ 94) := by
  fun_induction unescape w with
  | case1 => rfl
  | case2 => simp
  | case3 c hc => simp [hc]
  | case4 d r ih =>
    have hd : d ≠ 94 := by
      rintro rfl
      exact h ⟨[], r, rfl⟩
    rw [ih fun h1 => h (List.infix_cons (List.infix_cons h1))]
    simp [hd]
  | case5 c d r hc ih =>
    rw [ih fun h1 => h (List.infix_cons h1)]
    simp [hc]

theorem not_builtin_94 {k : List Nat} (h : k.map lower ∈ builtins) : 94 ∉ k := by
  intro h94
  have := (builtins_ascii _ h).2.2 94 (lower_94 h94)
  omega

theorem isCmdCommand_iff (k : List Nat) :
    (isCmdCommand k).isSome = true ↔ ¬ [94, 94] <:+: k ∧ (k.filter (· ≠ 94)).map lowerCase ∈ builtins := by
  have hf : ∀ k : List Nat, 94 ∉ k → k.filter (· ≠ 94) = k := by
    intro k h
    rw [List.filter_eq_self]
    intro x hx
    simp only [decide_eq_true_eq]
    rintro rfl
    exact h hx
  unfold isCmdCommand
  constructor
  · intro h
    split at h
    · rename_i h1
      have h1 := (builtins_iff _).1 h1
      have h94 := not_builtin_94 h1
      refine ⟨fun h2 => h94 (h2.subset (by simp)), ?_⟩
      rw [hf k h94]; exact h1
    · split at h
      · simp at h
      · split at h
        · rename_i h1
          have h1 := (builtins_iff _).1 h1
          have h94 := not_builtin_94 h1
          refine ⟨unescape_pair k h94, ?_⟩
          rw [← unescape_filter k h94]; exact h1
        · simp at h
  · rintro ⟨h1, h2⟩
    split
    · rfl
    · rename_i h3
      split
      · rename_i h94
        rw [hf k h94] at h2
        exact absurd ((builtins_iff _).2 h2) h3
      · rw [if_pos]
        · rfl
        · rw [unescape_of_pair k h1]; exact (builtins_iff _).2 h2

theorem foldl_digit {c : Nat} {r : List Nat} (h : 48 ≤ c ∧ c ≤ 57) : mode (c :: r) = mode r := by
  have : Mode.step .plain c = .plain := by simp only [Mode.step]; rw [if_neg (by omega), if_neg (by omega)]
  simp [mode, this]

theorem mode_dropDigit (u : List Nat) : mode (dropDigit u) = mode u := by
  cases u with
  | nil => rfl
  | cons c r =>
    simp only [dropDigit]
    split
    · rename_i h; exact (foldl_digit h).symm
    · rfl

theorem outerFrom_append (m : Mode) (u v : List Nat) : outerFrom m (u ++ v) = outerFrom m u ++ outerFrom (u.foldl Mode.step m) v := by
  induction u generalizing m with
  | nil => simp [outerFrom]
  | cons c r ih => simp [outerFrom, ih]

/-- What `m_word` holds. -/
def outer (u : List Nat) : List Nat := outerFrom .plain (dropDigit u)

theorem dropDigit_append {u : List Nat} (h : u ≠ []) (v : List Nat) : dropDigit (u ++ v) = dropDigit u ++ v := by
  cases u with
  | nil => exact absurd rfl h
  | cons c r => simp only [List.cons_append, dropDigit]; split <;> rfl

theorem outer_append {u v : List Nat} (h : u = [] → ∀ c, v.head? = some c → ¬ Digit c) : outer (u ++ v) = outer u ++ outerFrom (mode u) v := by
  cases u with
  | nil =>
    have h1 := h rfl
    cases v with
    | nil => rfl
    | cons c r =>
      have : ¬ (48 ≤ c ∧ c ≤ 57) := h1 c rfl
      simp [outer, dropDigit, this, mode, outerFrom]
  | cons a r =>
    rw [outer, dropDigit_append (by simp), outerFrom_append, ← mode_dropDigit (a :: r)]
    rfl

theorem Builtin_iff (w : List Nat) : Builtin w ↔ (outer w).length ≤ 8 ∧ (isCmdCommand (outer w)).isSome = true := by
  rw [isCmdCommand_iff]; rfl

structure CmdRep (fst : Bool) (cs : CmdState) (u : List Nat) : Prop where
  first : cs.first = false
  off : fst = false → cs.failed = true
  rem : fst = true → cs.onlyRem = false
  on : fst = true → cs.failed = false → cs.word = outer u ∧ cs.isMatch = (isCmdCommand (outer u)).isSome
  dead : fst = true → cs.failed = true → 8 < (outer u).length ∨ ∃ x ∈ outer u, 127 < x

theorem CmdRep.congr {fst : Bool} {cs : CmdState} {u v : List Nat} (h : CmdRep fst cs u) (he : outer v = outer u) : CmdRep fst cs v :=
  ⟨h.first, h.off, h.rem, he ▸ h.on, he ▸ h.dead⟩

theorem not_dead {k : List Nat} (h1 : k.length ≤ 8) (h2 : (isCmdCommand k).isSome = true) : ¬ (8 < k.length ∨ ∃ x ∈ k, 127 < x) := by
  rintro (h | ⟨x, hx, h⟩)
  · omega
  · have h3 := ((isCmdCommand_iff k).1 h2).2
    have : lowerCase x ∈ (k.filter (· ≠ 94)).map lowerCase := List.mem_map.2 ⟨x, List.mem_filter.2 ⟨hx, by simp; omega⟩, rfl⟩
    have := (builtins_ascii _ h3).2.2 _ this
    unfold lowerCase at this
    split at this <;> omega

theorem commandDelimiter_iff {c : Nat} (h0 : c ≠ 0) (hb : ¬ Blank c) (ha : ¬ Angle c) :
    isCommandDelimiter c = true ↔ c ∈ [38, 40, 61, 43, 91, 93, 92, 124, 59, 58, 44, 46, 47] := by
  have : str "&(=+[]\\|;:,.<>/ \t" = [38, 40, 61, 43, 91, 93, 92, 124, 59, 58, 44, 46, 60, 62, 47, 32, 9] := by decide
  unfold isCommandDelimiter
  rw [this]
  unfold Blank at hb
  unfold Angle at ha
  simp
  omega

theorem outer_nil : outer [] = [] := rfl

theorem test_break {fst : Bool} {cs : CmdState} {u : List Nat} {c : Nat} (h : CmdRep fst cs u) (h0 : c ≠ 0) (hb : ¬ Blank c) (ha : ¬ Angle c) :
    (cs.test c .txt).1 = true ↔ Breaks fst u c := by
  have hd := commandDelimiter_iff h0 hb ha
  unfold Breaks
  rw [Builtin_iff, ← hd]
  unfold CmdState.test
  by_cases hf : cs.failed = true
  · rw [if_pos hf]
    simp only [Bool.false_eq_true, false_iff, not_and]
    intro h1 h2 _
    exact not_dead h2.1 h2.2 (h.dead h1 hf)
  · rw [if_neg hf]
    have hf' : cs.failed = false := by simpa using hf
    cases fst with
    | false => exact absurd (h.off rfl) hf
    | true =>
      obtain ⟨h1, h2⟩ := h.on rfl hf'
      by_cases hw : cs.word = [] ∧ ((St.low .txt) = false ∨ c = 32 ∨ c = 9 ∨ c = 40 ∨ c = 64)
      · rw [if_pos hw]
        simp only [Bool.false_eq_true, false_iff, true_and, not_and]
        rintro ⟨-, h3⟩
        rw [← h1, hw.1] at h3
        exact absurd h3 (by decide +kernel)
      · rw [if_neg hw]
        by_cases hl : cs.word.length > 8 ∨ c > 127
        · rw [if_pos hl]
          simp only [Bool.false_eq_true, false_iff, true_and, not_and]
          rintro ⟨h3, -⟩ h4
          rw [hd] at h4
          rw [h1] at hl
          simp at h4
          omega
        · rw [if_neg hl]
          by_cases hm : cs.isMatch = true ∧ isCommandDelimiter c = true
          · rw [if_pos hm]
            simp only [true_and, true_iff]
            rw [← h2, ← h1]
            exact ⟨⟨by omega, hm.1⟩, hm.2⟩
          · rw [if_neg hm]
            dsimp only
            generalize (if c = 0 then cs.word else cs.word ++ [c]) = w
            have key : ¬ (true = true ∧ ((outer u).length ≤ 8 ∧ (isCmdCommand (outer u)).isSome = true) ∧ isCommandDelimiter c = true) := by
              rintro ⟨-, ⟨-, h3⟩, h4⟩
              exact hm ⟨by rw [h2, h3], h4⟩
            refine iff_of_false ?_ key
            rw [Bool.not_eq_true]
            cases isCmdCommand w with
            | none => rfl
            | some r => dsimp only; split <;> rfl

theorem test_rep {fst : Bool} {cs : CmdState} {u v : List Nat} {c : Nat} (h : CmdRep fst cs u) (h0 : c ≠ 0) (hn : fst = true → c ∉ nameSeps)
    (hv : outer v = outer u ++ [c]) (ht : (cs.test c .txt).1 = false) : CmdRep fst (cs.test c .txt).2 v := by
  refine ⟨by rw [test_first]; exact h.first, ?_, fun hf => by rw [test_onlyRem]; exact h.rem hf, ?_, ?_⟩
  · intro hf
    unfold CmdState.test
    rw [if_pos (h.off hf)]
    exact h.off hf
  all_goals
    intro hf
    have hn := hn hf
    have hrem := h.rem hf
    unfold CmdState.test at ht ⊢
    by_cases hfa : cs.failed = true
    · rw [if_pos hfa]
      simp only [hfa, hv]
      first
      | (intro h1; cases h1; done)
      | (rintro -
         rcases h.dead hf hfa with h1 | ⟨x, hx, h1⟩
         · left; simp; omega
         · exact .inr ⟨x, by simp [hx], h1⟩)
    · rw [if_neg hfa] at ht ⊢
      have hfa' : cs.failed = false := by simpa using hfa
      obtain ⟨h1, h2⟩ := h.on hf hfa'
      have hw : ¬ (cs.word = [] ∧ ((St.low .txt) = false ∨ c = 32 ∨ c = 9 ∨ c = 40 ∨ c = 64)) := by
        rintro ⟨-, h3⟩
        apply hn
        have h4 : St.low .txt = true := rfl
        rw [h4] at h3
        simp only [nameSeps, List.mem_cons]
        rcases h3 with h3 | rfl | rfl | rfl | rfl
        · cases h3
        all_goals simp
      rw [if_neg hw] at ht ⊢
      by_cases hl : cs.word.length > 8 ∨ c > 127
      · rw [if_pos hl]
        simp only [hv]
        first
        | (intro h1; cases h1; done)
        | (rintro -
           rcases hl with h3 | h3
           · left; rw [h1] at h3; simp; omega
           · exact .inr ⟨c, by simp, h3⟩)
      · rw [if_neg hl] at ht ⊢
        by_cases hm : cs.isMatch = true ∧ isCommandDelimiter c = true
        · rw [if_pos hm] at ht; cases ht
        · rw [if_neg hm] at ht ⊢
          dsimp only
          rw [if_neg h0, hv, ← h1]
          cases hi : isCmdCommand (cs.word ++ [c]) with
          | none => simp [hfa', hi]
          | some r => simp [hrem, hfa', hi]


/-! The loop. -/

/-- The variables once the character has been looked at. -/
def WordLoop.seen (n : Nat) (s : WordLoop) : WordLoop :=
  { s with
    c := peek s.iter
    firstSlash := if s.firstChar then peek s.iter == 47 else s.firstSlash
    endWord := if (wordState s.state (peek s.iter) = .txt ∨ wordState s.state (peek s.iter) = .spc) ∧ s.state.low then n - s.iter.length else s.endWord }

theorem look_seen {n : Nat} {cw : Bool} {s : WordLoop} (h : (wordState s.state (peek s.iter)).ends = false) : s.look n cw = (false, s.seen n) := by
  unfold WordLoop.look WordLoop.seen
  dsimp only
  rw [if_neg (by rw [h]; decide)]
  split <;> rfl

theorem wordLoop_step {n after : Nat} {cw : Bool} {s : WordLoop} (hq : s.inQuote = false)
    (h : (wordState s.state (peek s.iter)).ends = false) (hm : more s.iter = true) :
    wordLoop n after cw s = if ((s.seen n).eat n after cw).1 = true then ((s.seen n).eat n after cw).2
      else wordLoop n after cw { ((s.seen n).eat n after cw).2 with firstChar := false } := by
  rw [wordLoop]
  rw [if_neg (by rw [hq]; decide)]
  dsimp only
  rw [look_seen h]
  dsimp only
  rw [if_neg (by decide), dif_pos (by exact hm)]
  by_cases he : ((s.seen n).eat n after cw).1 = true
  · rw [dif_pos he, if_pos he]
  · rw [dif_neg he, if_neg he]

theorem wordLoop_end {n after : Nat} {cw : Bool} {s : WordLoop} (hq : s.inQuote = false)
    (h : (wordState s.state (peek s.iter)).ends = false) (hm : more s.iter = false) : wordLoop n after cw s = s.seen n := by
  rw [wordLoop]
  rw [if_neg (by rw [hq]; decide)]
  dsimp only
  rw [look_seen h]
  dsimp only
  rw [if_neg (by decide), dif_neg (by rw [show (s.seen n).iter = s.iter from rfl, hm]; decide)]

/-- The test for the name of a command. -/
def WordLoop.tested (s : WordLoop) : Bool × CmdState := if wordState s.state s.c = .txt then s.cmd.test s.c .txt else (false, s.cmd)

theorem eat_eq {n after : Nat} {cw : Bool} {s : WordLoop} (h : s.caret after = s.c) : s.eat n after cw =
    if s.tested.1 || (s.c = 47 ∧ s.firstSlash = false ∧ s.firstChar = false ∧ cw ∧ s.redirArg = false) then (true, { s with cmd := s.tested.2 })
    else if wordState s.state s.c = .spc ∨ wordState s.state s.c = .txt ∧ isDelim (getDelims cw s.redirArg (s.firstSlash = false ∧ s.firstChar = false)) s.c
    then (true, { s with cmd := s.tested.2, iter := if s.c = 94 then next (next s.iter) else next s.iter })
    else (false, { s with
      cmd := s.tested.2, iter := if s.c = 94 then next (next s.iter) else next s.iter,
      endWord := if wordState s.state s.c = .txt then n - (if s.c = 94 then next (next s.iter) else next s.iter).length else s.endWord,
      inQuote := s.c == 34, state := wordState s.state s.c }) := by
  unfold WordLoop.eat WordLoop.endsBefore WordLoop.endsAt WordLoop.eatCmd WordLoop.eatIter WordLoop.eatState WordLoop.tested
  simp only [h, if_true, decide_eq_true_eq]

theorem caret_ne {after : Nat} {s : WordLoop} (h : s.c ≠ 94) : s.caret after = s.c := by
  unfold WordLoop.caret
  rw [if_neg (by simp [h])]

/-- What reading a word in quotes does not change. -/
structure Same (s s' : WordLoop) : Prop where
  startWord : s'.startWord = s.startWord
  nextRedir : s'.nextRedir = s.nextRedir
  cmd : s'.cmd = s.cmd
  redirArg : s'.redirArg = s.redirArg
  state : s'.state = s.state
  firstSlash : s'.firstSlash = s.firstSlash

theorem wordLoop_quote {n after : Nat} {cw : Bool} (rem : List Nat) : ∀ s : WordLoop, (∀ x ∈ rem, IsText x) → s.inQuote = true → s.iter = flat rem →
    (34 ∉ rem ∧ ∃ s', wordLoop n after cw s = s' ∧ Same s s' ∧ s'.iter = [] ∧ s'.endWord = if rem = [] then s.endWord else n) ∨
    ∃ q r s', rem = q ++ 34 :: r ∧ 34 ∉ q ∧ wordLoop n after cw s = wordLoop n after cw s' ∧ Same s s' ∧ s'.inQuote = false ∧
      s'.iter = flat r ∧ s'.endWord = n - (flat r).length ∧ s'.firstChar = false := by
  induction rem with
  | nil =>
    intro s h hq hi
    refine .inl ⟨by simp, s, ?_, ⟨rfl, rfl, rfl, rfl, rfl, rfl⟩, hi, by simp⟩
    rw [wordLoop, if_pos hq, dif_neg (by rw [hi]; simp [flat, more])]
  | cons c rem ih =>
    intro s h hq hi
    have hr : ∀ x ∈ rem, IsText x := fun x hx => h x (by simp [hx])
    have h1 : wordLoop n after cw s = wordLoop n after cw (s.quoted n) := by
      rw [wordLoop, if_pos hq, dif_pos (by rw [hi]; exact more_cons h)]
    have hi' : (s.quoted n).iter = flat rem := by
      show next s.iter = _
      rw [hi, next_cons h]
    have he' : (s.quoted n).endWord = n - (flat rem).length := by
      show n - (next s.iter).length = _
      rw [hi, next_cons h]
    have hq' : (s.quoted n).inQuote = (c != 34) := by
      show (peek s.iter != 34) = _
      rw [hi, peek_cons h]
    by_cases hc : c = 34
    · subst hc
      exact .inr ⟨[], rem, s.quoted n, rfl, by simp, h1, ⟨rfl, rfl, rfl, rfl, rfl, rfl⟩, by rw [hq']; rfl, hi', he', rfl⟩
    · rcases ih (s.quoted n) hr (by rw [hq']; simpa using hc) hi' with ⟨h2, s', h3, h4, h5, h6⟩ | ⟨q, r, s', h2, h3, h4, h5, h6⟩
      · refine .inl ⟨by simp [h2]; exact fun e => hc e.symm, s', by rw [h1, h3], ⟨h4.1, h4.2, h4.3, h4.4, h4.5, h4.6⟩, h5, ?_⟩
        rw [h6, he']
        cases rem <;> simp [flat]
      · refine .inr ⟨c :: q, r, s', by simp [h2], by simp [h3]; exact fun e => hc e.symm, by rw [h1, h4], ⟨h5.1, h5.2, h5.3, h5.4, h5.5, h5.6⟩, h6⟩

/-- A word that is being read: `u` has been read, and `rem` is left. -/
structure Reading (n : Nat) (cw redir fst slash : Bool) (s : WordLoop) (u rem : List Nat) : Prop where
  text : ∀ x ∈ rem, IsText x
  iter : s.iter = flat rem
  pos : s.startWord + (flat u).length + (flat rem).length = n
  quote : s.inQuote = false
  nextRedir : s.nextRedir = false
  redirArg : s.redirArg = redir
  state : s.state = .spc ∧ u = [] ∨ s.state = .dig ∧ (∃ d, Digit d ∧ u = [d]) ∨ s.state = .txt ∧ u ≠ [] ∧ ∀ d, Digit d → u ≠ [d]
  endWord : s.endWord = if s.state = .txt then s.startWord + (flat u).length else s.startWord
  cmd : CmdRep fst s.cmd u
  head : slash = true → (u ++ rem).head? = some 47
  slash : (if s.firstChar then decide (rem.head? = some 47) else s.firstSlash) = slash
  char : u ≠ [] → s.firstChar = false
  fst : fst = true → cw = true ∧ redir = false
  before : u = [] → ¬ AtSep (kind cw redir).before rem
  plain : mode u = .plain

/-- The variables after the word. -/
structure Out (s : WordLoop) (start : Nat) (w : List Nat) (delim : Nat) (rest : List Nat) (redir' redir : Bool) : Prop where
  startWord : s.startWord = start
  endWord : s.endWord = start + (flat w).length
  iter : s.iter = flat rest
  nextRedir : s.nextRedir = redir'
  redirArg : s.redirArg = redir
  delim : (if more s.iter then s.c % 256 else 0) = delim
  first : s.cmd.first = false

theorem Spec.IsWord.snoc {k : Kind} {slash fst : Bool} {after : Nat} {u v r : List Nat} {c : Nat} (h : IsWord k slash after fst u (c :: (v ++ r)))
    (he : ¬ EndsWord k slash after c (v ++ r)) (hb : ¬ Breaks fst u c) (hv : ∀ p x r, v = p ++ x :: r → mode (u ++ c :: p) ≠ .plain) :
    IsWord k slash after fst (u ++ c :: v) r := by
  intro p x r' hp hmp
  rcases List.append_eq_append_iff.1 hp with ⟨a, ha, hr⟩ | ⟨a, ha, hr⟩
  · cases a with
    | nil =>
      simp at ha hr
      subst ha
      obtain ⟨rfl, rfl⟩ := hr
      exact ⟨he, hb⟩
    | cons y a =>
      obtain ⟨rfl, hr'⟩ := List.cons.inj hr
      exact absurd (ha ▸ hmp) (hv a x r' hr')
  · cases a with
    | nil =>
      simp at ha hr
      subst ha
      obtain ⟨rfl, rfl⟩ := hr
      exact ⟨he, hb⟩
    | cons y a =>
      obtain ⟨rfl, hr'⟩ := List.cons.inj hr
      have := h p x a ha hmp
      rw [hr']
      simpa using this

theorem wordState_blank {st : St} (h : st.low = true) {c : Nat} (hc : Blank c) : wordState st c = .spc := by
  rw [wordState, blank_type hc]
  cases st <;> simp [St.low] at h <;> rfl

theorem wordState_digit {c : Nat} (hc : Digit c) : wordState .spc c = .dig := by
  rw [wordState, digit_type hc]; rfl

theorem wordState_text {st : St} (h : st.low = true) {c : Nat} (h0 : c ≠ 0) (hb : ¬ Blank c) (ha : ¬ Angle c) (hd : st = .spc → ¬ Digit c) :
    wordState st c = .txt := by
  have hi := inputType_iff h0
  unfold wordState
  cases hc : inputType c <;> rw [hc] at hi <;> simp only at hi
  · cases st <;> simp [St.low] at h <;> rfl
  · exact absurd hi hb
  · cases st <;> simp [St.low] at h
    · rfl
    · exact absurd hi (hd rfl)
    · rfl
  · exact absurd (Or.inl hi) ha
  · exact absurd (Or.inr hi) ha
  · cases st <;> simp [St.low] at h <;> rfl
  · cases st <;> simp [St.low] at h <;> rfl

theorem wordState_ends {st : St} (h : st.low = true) (c : Nat) : (wordState st c).ends = false := by
  unfold wordState
  cases inputType c <;> cases st <;> simp [St.low] at h <;> rfl

theorem peek_nil : peek [] = 0 := by decide
theorem more_nil : more [] = false := by decide

theorem wordLoop_congr {n after : Nat} {cw : Bool} {s s' : WordLoop} (h : s.inQuote = false) (h' : s'.inQuote = false)
    (he : s.look n cw = s'.look n cw) : wordLoop n after cw s = wordLoop n after cw s' := by
  conv => lhs; rw [wordLoop, if_neg (by rw [h]; decide), he]
  conv => rhs; rw [wordLoop, if_neg (by rw [h']; decide)]

theorem op_step {n after : Nat} {cw : Bool} {s : WordLoop} {c : Nat} {rem : List Nat} {new : St} (hq : s.inQuote = false)
    (ht : ∀ x ∈ c :: rem, IsText x) (hi : s.iter = flat (c :: rem)) (hn : wordState s.state c = new) (hl : new.low = false) (he : new.ends = false)
    (h94 : c ≠ 94) (h34 : c ≠ 34) (h47 : c ≠ 47) :
    wordLoop n after cw s = wordLoop n after cw { s with
      c := c, firstSlash := if s.firstChar then false else s.firstSlash, iter := flat rem, state := new, firstChar := false } := by
  have hp : peek s.iter = c := by rw [hi, peek_cons ht]
  have hx : next s.iter = flat rem := by rw [hi, next_cons ht]
  rw [wordLoop_step hq (by rw [hp, hn]; exact he) (by rw [hi]; exact more_cons ht)]
  have hc : (s.seen n).c = c := hp
  have hns : wordState (s.seen n).state (s.seen n).c = new := by rw [hc]; exact hn
  have h1 : new ≠ .txt := by rintro rfl; cases hl
  have h2 : new ≠ .spc := by rintro rfl; cases hl
  have hte : (s.seen n).tested = (false, s.cmd) := by rw [WordLoop.tested, hns, if_neg h1]; rfl
  have hew : (s.seen n).endWord = s.endWord := by
    simp only [WordLoop.seen, hp, hn, h1, h2, or_self, false_and, if_false]
  rw [eat_eq (caret_ne (by rw [hc]; exact h94))]
  rw [hte, hns, hc]
  simp only [h47, h94, h1, h2, hew, false_and, decide_false, Bool.or_self, Bool.false_eq_true, or_self, if_false]
  have : (c == 34) = false := by simp [h34]
  simp only [this]
  simp only [WordLoop.seen, hx, hp]
  have : (c == 47) = false := by simp [h47]
  rw [this, hq]

theorem op_stop {n after : Nat} {cw : Bool} {s : WordLoop} (hq : s.inQuote = false) (he : (wordState s.state (peek s.iter)).ends = true)
    (hw : s.endWord > s.startWord) : wordLoop n after cw s = { s with
      c := peek s.iter, firstSlash := if s.firstChar then peek s.iter == 47 else s.firstSlash, nextRedir := wordState s.state (peek s.iter) = .arg } := by
  rw [wordLoop, if_neg (by rw [hq]; decide)]
  have : s.look n cw = (true, { s with
      c := peek s.iter, firstSlash := if s.firstChar then peek s.iter == 47 else s.firstSlash, nextRedir := wordState s.state (peek s.iter) = .arg }) := by
    unfold WordLoop.look
    dsimp only
    rw [if_pos he, if_pos hw]
  dsimp only
  rw [this]
  rfl

theorem op_restart {n after : Nat} {cw : Bool} {s : WordLoop} (hq : s.inQuote = false) (he : (wordState s.state (peek s.iter)).ends = true)
    (hw : ¬ s.endWord > s.startWord) (hf : s.firstChar = false) : wordLoop n after cw s = wordLoop n after cw
      (WordLoop.startNew n cw { s with c := peek s.iter, nextRedir := wordState s.state (peek s.iter) = .arg, state := .spc }) := by
  refine wordLoop_congr hq hq ?_
  rw [look_seen (s := WordLoop.startNew n cw { s with c := peek s.iter, nextRedir := wordState s.state (peek s.iter) = .arg, state := .spc })
    (wordState_ends rfl _)]
  unfold WordLoop.look
  dsimp only
  rw [if_pos he, if_neg hw]
  simp only [hf, Bool.false_eq_true, if_false]
  unfold WordLoop.seen WordLoop.startNew
  simp only [hf, Bool.false_eq_true, if_false, St.low, and_true]
  split <;> rfl

/-- What reading a word comes to. -/
def Alt (n after : Nat) (cw redir fst slash : Bool) (s : WordLoop) (u rem : List Nat) : Prop :=
  (∃ w r delim rest redir', u ++ rem = w ++ r ∧ IsWord (kind cw redir) slash after fst w r ∧
    After (kind cw redir) slash after fst w r delim rest redir' ∧ Out (wordLoop n after cw s) s.startWord w delim rest redir' redir) ∨
  ∃ op r redir', ∃ s₂ : WordLoop, u ++ rem = op ++ r ∧ Operator op r redir' ∧ wordLoop n after cw s = wordLoop n after cw (s₂.startNew n cw) ∧
    s₂.iter = flat r ∧ s₂.nextRedir = redir' ∧ s₂.state = .spc ∧ s₂.inQuote = false ∧ s₂.firstChar = false ∧ s₂.firstSlash = false ∧
    s₂.cmd.first = false


/-- The state after a redirection symbol. -/
def OpState : Bool → St → List Nat → Prop
  | false, st, op => st = .in_ ∧ op = [60] ∨ st = .out ∧ op = [62] ∨ st = .in2 ∧ op = [60, 60] ∨ st = .out2 ∧ op = [62, 62]
  | true, st, op => st = .din ∧ op = [60] ∨ st = .dout ∧ op = [62] ∨ st = .din2 ∧ op = [60, 60] ∨ st = .dout2 ∧ op = [62, 62]

instance (b : Bool) (st : St) (op : List Nat) : Decidable (OpState b st op) := by cases b <;> unfold OpState <;> infer_instance

theorem Alt.right {n after : Nat} {cw redir fst slash redir' : Bool} {s s₁ : WordLoop} {u rem op r : List Nat} (he : u ++ rem = op ++ r)
    (ho : Operator op r redir') (hl : wordLoop n after cw s = wordLoop n after cw s₁) (hq : s₁.inQuote = false) (hi : s₁.iter = flat r)
    (hends : (wordState s₁.state (peek (flat r))).ends = true) (hr : decide (wordState s₁.state (peek (flat r)) = .arg) = redir')
    (hew : ¬ s₁.endWord > s₁.startWord) (hf : s₁.firstChar = false) (hs : s₁.firstSlash = false) (hc : s₁.cmd.first = false) :
    Alt n after cw redir fst slash s u rem := by
  refine .inr ⟨op, r, redir', { s₁ with c := peek s₁.iter, nextRedir := wordState s₁.state (peek s₁.iter) = .arg, state := .spc }, he, ho, ?_,
    hi, ?_, rfl, hq, hf, hs, hc⟩
  · rw [hl]
    exact op_restart hq (by rw [hi]; exact hends) hew hf
  · rw [← hr, hi]

theorem op_ends {b : Bool} {st : St} {op r : List Nat} (h : OpState b st op) (hw : Whole op r) (ht : ∀ x ∈ r, IsText x)
    (hb : b = true → r.head? ≠ some 38) :
    (wordState st (peek (flat r))).ends = true ∧ decide (wordState st (peek (flat r)) = .arg) = isTarget r := by
  cases r with
  | nil =>
    rw [show flat [] = [] from rfl, peek_nil]
    cases b <;> rcases h with ⟨rfl, rfl⟩ | ⟨rfl, rfl⟩ | ⟨rfl, rfl⟩ | ⟨rfl, rfl⟩ <;> decide
  | cons x r =>
    rw [peek_cons ht]
    have h0 : x ≠ 0 := by have := ht x (by simp); unfold IsText at this; omega
    have hi := inputType_iff h0
    unfold wordState
    have hx : b = true → x ≠ 38 := fun e hx => hb e (by simp [hx])
    cases hc : inputType x <;> rw [hc] at hi <;> simp only at hi
    · have : isTarget (x :: r) = true := by
        obtain ⟨-, -, h1, h2⟩ := hi
        unfold Angle at h1; unfold IsSep at h2
        simp [isTarget]; omega
      rw [this]
      cases b <;> rcases h with ⟨rfl, rfl⟩ | ⟨rfl, rfl⟩ | ⟨rfl, rfl⟩ | ⟨rfl, rfl⟩ <;> decide
    · have : isTarget (x :: r) = true := by
        unfold Blank at hi
        simp [isTarget]; omega
      rw [this]
      cases b <;> rcases h with ⟨rfl, rfl⟩ | ⟨rfl, rfl⟩ | ⟨rfl, rfl⟩ | ⟨rfl, rfl⟩ <;> decide
    · have : isTarget (x :: r) = true := by
        unfold Digit at hi
        simp [isTarget]; omega
      rw [this]
      cases b <;> rcases h with ⟨rfl, rfl⟩ | ⟨rfl, rfl⟩ | ⟨rfl, rfl⟩ | ⟨rfl, rfl⟩ <;> decide
    · subst hi
      rw [show isTarget (60 :: r) = false by simp [isTarget]]
      cases b <;> rcases h with ⟨rfl, rfl⟩ | ⟨rfl, rfl⟩ | ⟨rfl, rfl⟩ | ⟨rfl, rfl⟩ <;> simp [Whole] at hw <;> decide
    · subst hi
      rw [show isTarget (62 :: r) = false by simp [isTarget]]
      cases b <;> rcases h with ⟨rfl, rfl⟩ | ⟨rfl, rfl⟩ | ⟨rfl, rfl⟩ | ⟨rfl, rfl⟩ <;> simp [Whole] at hw <;> decide
    · subst hi
      rw [show isTarget (38 :: r) = false by simp [isTarget]]
      cases b
      · rcases h with ⟨rfl, rfl⟩ | ⟨rfl, rfl⟩ | ⟨rfl, rfl⟩ | ⟨rfl, rfl⟩ <;> decide
      · exact absurd rfl (hx rfl)
    · subst hi
      rw [show isTarget (124 :: r) = false by simp [isTarget]]
      cases b <;> rcases h with ⟨rfl, rfl⟩ | ⟨rfl, rfl⟩ | ⟨rfl, rfl⟩ | ⟨rfl, rfl⟩ <;> decide

/-- Reading a redirection symbol. -/
theorem op_read {n after : Nat} {cw : Bool} {s : WordLoop} {c : Nat} {rem : List Nat} (hq : s.inQuote = false)
    (ht : ∀ x ∈ c :: rem, IsText x) (hi : s.iter = flat (c :: rem)) (hs : s.state.low = true) (hc : Angle c) :
    ∃ op r st c', Redir op ∧ Whole op r ∧ c :: rem = op ++ r ∧ OpState (s.state == .dig) st op ∧
      wordLoop n after cw s = wordLoop n after cw { s with
        c := c', firstSlash := if s.firstChar then false else s.firstSlash, iter := flat r, state := st, firstChar := false } := by
  have h1 : c ≠ 94 ∧ c ≠ 34 ∧ c ≠ 47 := by unfold Angle at hc; omega
  have hr : ∀ x ∈ rem, IsText x := fun x hx => ht x (by simp [hx])
  have hns : (wordState s.state c).low = false ∧ (wordState s.state c).ends = false := by
    cases hst : s.state <;> rw [hst] at hs <;> simp [St.low] at hs <;> rcases hc with rfl | rfl <;> decide
  have step1 := op_step (n := n) (after := after) (cw := cw) hq ht hi rfl hns.1 hns.2 h1.1 h1.2.1 h1.2.2
  by_cases hh : rem.head? = some c
  · cases rem with
    | nil => cases hh
    | cons x rem =>
      simp only [List.head?_cons, Option.some.injEq] at hh
      subst hh
      have hns2 : (wordState (wordState s.state x) x).low = false ∧ (wordState (wordState s.state x) x).ends = false := by
        cases hst : s.state <;> rw [hst] at hs <;> simp [St.low] at hs <;> rcases hc with rfl | rfl <;> decide
      rw [op_step (s := { s with
        c := x, firstSlash := if s.firstChar then false else s.firstSlash, iter := flat (x :: rem), state := wordState s.state x, firstChar := false })
        (by exact hq) hr rfl rfl hns2.1 hns2.2 h1.1 h1.2.1 h1.2.2] at step1
      refine ⟨[x, x], rem, _, x, ?_, by simp [Whole], rfl, ?_, step1⟩
      · rcases hc with rfl | rfl <;> simp [Redir]
      · dsimp only
        cases hst : s.state <;> rw [hst] at hs <;> simp [St.low] at hs <;> rcases hc with rfl | rfl <;> decide
  · refine ⟨[c], rem, _, c, ?_, fun _ => by simpa using hh, rfl, ?_, step1⟩
    · rcases hc with rfl | rfl <;> simp [Redir]
    · cases hst : s.state <;> rw [hst] at hs <;> simp [St.low] at hs <;> rcases hc with rfl | rfl <;> decide

theorem Reading.low {n : Nat} {cw redir fst slash : Bool} {s : WordLoop} {u rem : List Nat} (h : Reading n cw redir fst slash s u rem) :
    s.state.low = true := by
  rcases h.state with ⟨h, -⟩ | ⟨h, -⟩ | ⟨h, -⟩ <;> rw [h] <;> rfl

theorem flat_pos' {w : List Nat} (h : w ≠ []) (ht : ∀ x ∈ w, IsText x) : 0 < (flat w).length := by
  cases w with
  | nil => exact absurd rfl h
  | cons c r => exact flat_pos ht

theorem alt_op {n after : Nat} {cw redir fst slash : Bool} {s : WordLoop} {u rem : List Nat} {c : Nat}
    (h : Reading n cw redir fst slash s u (c :: rem)) (hu : ∀ x ∈ u, IsText x) (hw : IsWord (kind cw redir) slash after fst u (c :: rem)) (hc : Angle c) :
    Alt n after cw redir fst slash s u (c :: rem) := by
  obtain ⟨op, r, st, c', h1, h2, h3, h4, h5⟩ := op_read (n := n) (after := after) (cw := cw) h.quote h.text h.iter h.low hc
  have hr : ∀ x ∈ r, IsText x := fun x hx => h.text x (by rw [h3]; simp [hx])
  have hfs : (u = [] ∨ ∃ d, Digit d ∧ u = [d]) → (if s.firstChar then false else s.firstSlash) = false := by
    intro hu
    split
    · rfl
    · rename_i hf
      have hs := h.slash
      rw [if_neg hf] at hs
      rw [hs]
      cases slash with
      | false => rfl
      | true =>
        have := h.head rfl
        rcases hu with rfl | ⟨d, hd, rfl⟩
        · simp at this; unfold Angle at hc; omega
        · simp at this; unfold Digit at hd; omega
  rcases h.state with ⟨hs, rfl⟩ | ⟨hs, d, hd, rfl⟩ | ⟨hs, hne, hnd⟩
  · rw [hs] at h4
    obtain ⟨h6, h7⟩ := op_ends h4 h2 hr (by simp)
    exact .right h3 (.plain h1 h2) h5 h.quote rfl h6 h7 (by show ¬ s.endWord > s.startWord; rw [h.endWord, hs, if_neg (by decide)]; omega) rfl (hfs (.inl rfl)) h.cmd.first
  · rw [hs] at h4
    have hew : ¬ s.endWord > s.startWord := by rw [h.endWord, hs, if_neg (by decide)]; omega
    by_cases h38 : r.head? = some 38
    · cases r with
      | nil => cases h38
      | cons x r =>
        simp only [List.head?_cons, Option.some.injEq] at h38
        subst h38
        have hr2 : ∀ x ∈ r, IsText x := fun x hx => hr x (by simp [hx])
        have hst : wordState st 38 = .reAm := by
          rcases h4 with ⟨rfl, -⟩ | ⟨rfl, -⟩ | ⟨rfl, -⟩ | ⟨rfl, -⟩ <;> decide
        have h5 := h5.trans (op_step (new := .reAm) (by exact h.quote) hr rfl hst rfl rfl (by decide) (by decide) (by decide))
        dsimp only at h5
        by_cases he : ∃ e r', r = e :: r' ∧ Digit e
        · obtain ⟨e, r', rfl, he⟩ := he
          have hst2 : wordState .reAm e = .amDi := by rw [wordState, digit_type he]; rfl
          have h5 := h5.trans (op_step (new := .amDi) (by exact h.quote) hr2 rfl hst2 rfl rfl (by unfold Digit at he; omega) (by unfold Digit at he; omega)
            (by unfold Digit at he; omega))
          have hv : ∀ x, wordState .amDi x = .valid := by
            intro x; unfold wordState; cases inputType x <;> rfl
          refine .right (by simp [h3]) (.copy hd h1 he) h5 h.quote rfl (by simp only [hv]; rfl) (by simp only [hv]; rfl) hew rfl ?_ h.cmd.first
          simp only [Bool.false_eq_true, if_false]
          exact hfs (.inr ⟨d, hd, rfl⟩)
        · have hv : wordState .reAm (peek (flat r)) = .bad := by
            cases r with
            | nil => decide
            | cons e r' =>
              rw [peek_cons hr2]
              have h0 : e ≠ 0 := by have := hr2 e (by simp); unfold IsText at this; omega
              have hi := inputType_iff h0
              unfold wordState
              cases hc : inputType e <;> rw [hc] at hi <;> simp only at hi
              case dig => exact absurd ⟨e, r', rfl, hi⟩ he
              all_goals rfl
          refine .right (by simp [h3]) (.bad hd h1 ?_) h5 h.quote rfl (by simp only [hv]; rfl) (by simp only [hv]; rfl) hew rfl ?_ h.cmd.first
          · intro e hre hde
            cases r with
            | nil => cases hre
            | cons y r' =>
              simp only [List.head?_cons, Option.some.injEq] at hre
              subst hre
              exact he ⟨y, r', rfl, hde⟩
          · simp only [Bool.false_eq_true, if_false]
            exact hfs (.inr ⟨d, hd, rfl⟩)
    · obtain ⟨h6, h7⟩ := op_ends h4 h2 hr (fun _ => h38)
      exact .right (by simp [h3]) (.handle hd h1 h2 h38) h5 h.quote rfl h6 h7 hew rfl (hfs (.inr ⟨d, hd, rfl⟩)) h.cmd.first
  · rw [hs] at h4
    obtain ⟨h6, h7⟩ := op_ends h4 h2 hr (by simp)
    left
    refine ⟨u, op ++ r, _, r, isTarget r, by rw [h3], h3 ▸ hw, .redirection h1 h2 h.plain hne hnd, ?_⟩
    have hew : s.endWord = s.startWord + (flat u).length := by rw [h.endWord, if_pos hs]
    rw [h5, op_stop (by exact h.quote) (by exact h6) (by
      show s.endWord > s.startWord
      have := flat_pos' hne hu
      omega)]
    refine ⟨rfl, hew, rfl, h7, h.redirArg, ?_, h.cmd.first⟩
    cases r with
    | nil => rfl
    | cons x r => simp only [more_cons hr, if_true, peek_cons hr, List.headD_cons]


theorem getDelims_47 (cw redir a b : Bool) {c : Nat} (h : c ≠ 47) : c ∈ getDelims cw redir a ↔ c ∈ getDelims cw redir b := by
  have : c ∈ commandDelims ↔ c ∈ nameDelims := by rw [commandDelims_mem, nameDelims_eq']; simp [h]
  cases cw <;> cases redir <;> cases a <;> cases b <;> simp [getDelims, this]

section
variable {n after : Nat} {cw redir fst slash : Bool} {s : WordLoop} {u rem : List Nat} {c : Nat}

theorem Reading.peek (h : Reading n cw redir fst slash s u (c :: rem)) : Doskey.peek s.iter = c := by rw [h.iter, peek_cons h.text]
theorem Reading.next (h : Reading n cw redir fst slash s u (c :: rem)) : Doskey.next s.iter = flat rem := by rw [h.iter, next_cons h.text]
theorem Reading.more (h : Reading n cw redir fst slash s u (c :: rem)) : Utf.more s.iter = true := by rw [h.iter, more_cons h.text]

theorem Reading.seenSlash (h : Reading n cw redir fst slash s u (c :: rem)) : (s.seen n).firstSlash = slash := by
  rw [← h.slash]
  simp only [WordLoop.seen, h.peek, List.head?_cons, Option.some.injEq]
  split
  · by_cases hc : c = 47 <;> simp [hc]
  · rfl

theorem Reading.ne0 (h : Reading n cw redir fst slash s u (c :: rem)) : c ≠ 0 := by
  have := h.text c (by simp)
  unfold IsText at this; omega

theorem Reading.delims (h : Reading n cw redir fst slash s u (c :: rem)) :
    isDelim (getDelims cw redir (decide (slash = false ∧ s.firstChar = false))) c = true ↔ c ∈ (kind cw redir).ends slash := by
  rw [isDelim_text (h.text c (by simp)), ← getDelims_ends]
  have hs := h.slash
  cases hf : s.firstChar with
  | false => cases slash <;> simp
  | true =>
    rw [hf] at hs
    simp only [if_true, List.head?_cons, Option.some.injEq] at hs
    by_cases hc : c = 47
    · simp [hc] at hs
      subst hs
      simp
    · exact getDelims_47 _ _ _ _ hc

theorem Reading.slashBreak (h : Reading n cw redir fst slash s u (c :: rem)) :
    (c = 47 ∧ slash = false ∧ s.firstChar = false ∧ cw = true ∧ redir = false) ↔ c = 47 ∧ c ∈ (kind cw redir).ends slash := by
  have hs := h.slash
  constructor
  · rintro ⟨rfl, rfl, -, rfl, rfl⟩
    exact ⟨rfl, by decide⟩
  · rintro ⟨rfl, h2⟩
    have : slash = false ∧ cw = true ∧ redir = false := by
      revert h2; cases slash <;> cases cw <;> cases redir <;> decide
    refine ⟨rfl, this.1, ?_, this.2⟩
    cases hf : s.firstChar with
    | false => rfl
    | true =>
      rw [hf] at hs
      simp [this.1] at hs

/-- Words end at the end of the text. -/
theorem end_out {s₁ : WordLoop} {w : List Nat} (hq : s₁.inQuote = false) (hl : s₁.state.low = true) (hi : s₁.iter = [])
    (hp : s₁.startWord + (flat w).length = n) (hf : s₁.cmd.first = false) :
    Out (wordLoop n after cw s₁) s₁.startWord w 0 [] s₁.nextRedir s₁.redirArg := by
  rw [wordLoop_end hq (wordState_ends hl _) (by rw [hi]; decide)]
  have : wordState s₁.state (Doskey.peek s₁.iter) = .spc := by
    rw [hi, peek_nil]
    cases hs : s₁.state <;> rw [hs] at hl <;> simp [St.low] at hl <;> decide
  refine ⟨rfl, ?_, hi, rfl, rfl, ?_, hf⟩
  · simp only [WordLoop.seen, this, hl]
    rw [if_pos (by simp), hi]
    simp; omega
  · show (if Utf.more s₁.iter then _ else 0) = 0
    rw [hi]; rfl

/-- The step, when the character is not an escaped blank. -/
theorem Reading.step (h : Reading n cw redir fst slash s u (c :: rem)) (hc : (s.seen n).caret after = c) : wordLoop n after cw s =
    let t : Bool × CmdState := if wordState s.state c = .txt then s.cmd.test c .txt else (false, s.cmd)
    if t.1 || decide (c = 47 ∧ c ∈ (kind cw redir).ends slash) then { s.seen n with cmd := t.2 }
    else if wordState s.state c = .spc ∨ wordState s.state c = .txt ∧ c ∈ (kind cw redir).ends slash
    then { s.seen n with cmd := t.2, iter := if c = 94 then Doskey.next (flat rem) else flat rem }
    else wordLoop n after cw { s.seen n with
      cmd := t.2, iter := if c = 94 then Doskey.next (flat rem) else flat rem,
      endWord := if wordState s.state c = .txt then n - (if c = 94 then Doskey.next (flat rem) else flat rem).length else (s.seen n).endWord,
      inQuote := c == 34, state := wordState s.state c, firstChar := false } := by
  have hc' : (s.seen n).c = c := h.peek
  have hst : (s.seen n).state = s.state := rfl
  have hit : (s.seen n).iter = s.iter := rfl
  have hcmd : (s.seen n).cmd = s.cmd := rfl
  have hra : (s.seen n).redirArg = redir := h.redirArg
  have hfc : (s.seen n).firstChar = s.firstChar := rfl
  rw [wordLoop_step h.quote (wordState_ends h.low _) h.more, eat_eq (by rw [hc, hc'])]
  unfold WordLoop.tested
  rw [hc', hst, hit, h.next, hcmd, h.seenSlash, hra, hfc]
  have h1 : decide (c = 47 ∧ slash = false ∧ s.firstChar = false ∧ cw = true ∧ redir = false) = decide (c = 47 ∧ c ∈ (kind cw redir).ends slash) :=
    decide_eq_decide.2 h.slashBreak
  have h2 := h.delims
  dsimp only
  rw [h1]
  generalize (if wordState s.state c = .txt then s.cmd.test c .txt else (false, s.cmd)) = t
  by_cases h3 : (t.1 || decide (c = 47 ∧ c ∈ (kind cw redir).ends slash)) = true
  · rw [if_pos h3, if_pos h3]
    simp only [if_true]
    rw [WordLoop.mk.injEq]
    refine ⟨?_, ?_, ?_, ?_, ?_, ?_, ?_, ?_, ?_, ?_, ?_⟩ <;> first | rfl | exact h.redirArg.symm | exact h.seenSlash.symm | exact h.peek.symm
  · rw [if_neg h3, if_neg h3]
    have h4 : (wordState s.state c = .spc ∨ wordState s.state c = .txt ∧ isDelim (getDelims cw redir (decide (slash = false ∧ s.firstChar = false))) c = true) ↔
      (wordState s.state c = .spc ∨ wordState s.state c = .txt ∧ c ∈ (kind cw redir).ends slash) := by rw [h2]
    by_cases h5 : wordState s.state c = .spc ∨ wordState s.state c = .txt ∧ c ∈ (kind cw redir).ends slash
    · rw [if_pos (h4.2 h5), if_pos h5]
      simp only [if_true]
      rw [WordLoop.mk.injEq]
      refine ⟨?_, ?_, ?_, ?_, ?_, ?_, ?_, ?_, ?_, ?_, ?_⟩ <;> first | rfl | exact h.redirArg.symm | exact h.seenSlash.symm | exact h.peek.symm
    · rw [if_neg (fun x => h5 (h4.1 x)), if_neg h5]
      simp only [Bool.false_eq_true, if_false]
      refine congrArg _ ?_
      rw [WordLoop.mk.injEq]
      refine ⟨?_, ?_, ?_, ?_, ?_, ?_, ?_, ?_, ?_, ?_, ?_⟩ <;> first | rfl | exact h.redirArg.symm | exact h.seenSlash.symm | exact h.peek.symm


theorem caret_head {y a : Nat} {r : List Nat} (h : IsText y) :
    (inputType ((flat (y :: r)).headD a) = .spc ↔ Blank y) ∧ (Blank y → (flat (y :: r)).headD a = y) := by
  have key : ∃ b t, flat (y :: r) = b :: t ∧ (y < 128 ∧ b = y ∨ 128 ≤ y ∧ 128 ≤ b) := by
    rw [flat_cons]
    unfold specUtf8
    split
    · exact ⟨_, _, rfl, .inl ⟨by omega, rfl⟩⟩
    · split
      · exact ⟨_, _, rfl, .inr ⟨by omega, by omega⟩⟩
      · split
        · exact ⟨_, _, rfl, .inr ⟨by omega, by omega⟩⟩
        · exact ⟨_, _, rfl, .inr ⟨by omega, by omega⟩⟩
  obtain ⟨b, t, h1, h2⟩ := key
  rw [h1, List.headD_cons]
  have hb0 : b ≠ 0 := by unfold IsText at h; omega
  have hi := inputType_iff hb0
  refine ⟨⟨fun h3 => ?_, fun h3 => ?_⟩, fun h3 => ?_⟩
  · rw [h3] at hi
    simp only at hi
    unfold Blank at hi ⊢; omega
  · have : b = y := by unfold Blank at h3; omega
    rw [this]; exact blank_type h3
  · unfold Blank at h3; omega

/-- The caret does not escape a blank. -/
theorem Reading.caret (h : Reading n cw redir fst slash s u (c :: rem))
    (hc : c = 94 → redir = true ∨ ¬ BlankOrEnd (rem.headD after)) : (s.seen n).caret after = c := by
  have hc' : (s.seen n).c = c := h.peek
  have hra : (s.seen n).redirArg = redir := h.redirArg
  unfold WordLoop.caret
  rw [hc', hra]
  split
  · rename_i h1
    rcases hc h1.1 with h2 | h2
    · rw [h1.2] at h2; cases h2
    · dsimp only
      rw [show (s.seen n).iter = s.iter from rfl, h.next]
      rw [if_neg]
      intro h3
      apply h2
      cases rem with
      | nil =>
        simp only [List.headD_nil]
        rw [show flat [] = [] from rfl, List.headD_nil] at h3
        by_cases h0 : after = 0
        · exact .inr h0
        · have := inputType_iff h0
          rw [h3] at this
          exact .inl this
      | cons y r => exact .inl ((caret_head (h.text y (by simp))).1.1 h3)
  · rfl

/-- The caret escapes a blank. -/
theorem Reading.caretStop (h : Reading n cw redir fst slash s u (94 :: rem)) (hr : redir = false) (hb : BlankOrEnd (rem.headD after)) :
    wordLoop n after cw s = { s.seen n with c := rem.headD after, iter := flat rem } := by
  have hc' : (s.seen n).c = 94 := h.peek
  have hra : (s.seen n).redirArg = false := by rw [← hr]; exact h.redirArg
  have hit : (s.seen n).iter = s.iter := rfl
  have hy : (flat rem).headD after = rem.headD after ∧ inputType (rem.headD after) = .spc ∧ rem.headD after ≠ 94 ∧ rem.headD after ≠ 47 := by
    refine ⟨?_, ?_, ?_, ?_⟩
    · cases rem with
      | nil => rfl
      | cons y r =>
        have hty := h.text y (by simp)
        refine (caret_head hty).2 ?_
        rcases hb with hb | hb
        · exact hb
        · rw [List.headD_cons] at hb; unfold IsText at hty; omega
    · rcases hb with hb | hb
      · exact blank_type hb
      · rw [hb]; rfl
    · rintro h1; rw [h1] at hb; unfold BlankOrEnd Blank at hb; omega
    · rintro h1; rw [h1] at hb; unfold BlankOrEnd Blank at hb; omega
  have hca : (s.seen n).caret after = rem.headD after := by
    unfold WordLoop.caret
    rw [hc', hra, hit, h.next, hy.1]
    rw [if_pos ⟨rfl, rfl⟩]
    dsimp only
    rw [if_pos hy.2.1]
  have hes : (s.seen n).eatState after = .spc := by
    unfold WordLoop.eatState
    rw [hca, hc', if_neg hy.2.2.1]
    rcases h.state with ⟨h1, -⟩ | ⟨h1, -⟩ | ⟨h1, -⟩ <;> rw [show (s.seen n).state = s.state from rfl, h1] <;> rfl
  have hec : (s.seen n).eatCmd after = (false, s.cmd) := by
    unfold WordLoop.eatCmd
    rw [hes]; rfl
  rw [wordLoop_step h.quote (wordState_ends h.low _) h.more]
  have : (s.seen n).eat n after cw = (true, { s.seen n with c := rem.headD after, iter := flat rem }) := by
    unfold WordLoop.eat
    have h1 : (s.seen n).endsBefore after cw = false := by
      unfold WordLoop.endsBefore
      rw [hec, hca, decide_eq_false (fun h => hy.2.2.2 h.1)]
      rfl
    have h2 : (s.seen n).endsAt after cw = true := by
      unfold WordLoop.endsAt
      rw [hes]; simp
    have h3 : (s.seen n).eatIter after = flat rem := by
      unfold WordLoop.eatIter
      rw [hca, if_neg hy.2.2.1, hit, h.next]
    rw [h1, h2, h3, hca, hec]
    rfl
  rw [this]
  rfl


theorem Reading.seenEnd (h : Reading n cw redir fst slash s u (c :: rem)) (hs : wordState s.state c = .txt ∨ wordState s.state c = .spc) :
    (s.seen n).endWord = s.startWord + (flat u).length := by
  have := h.pos
  simp only [WordLoop.seen, h.peek]
  rw [if_pos ⟨hs, h.low⟩, h.iter]
  omega

theorem mode_caret {u : List Nat} (h : mode u = .plain) (y : Nat) : mode (u ++ [94, y]) = .plain := by
  rw [mode_append, h]; rfl

theorem mode_char {u : List Nat} (h : mode u = .plain) {c : Nat} (h1 : c ≠ 94) (h2 : c ≠ 34) : mode (u ++ [c]) = .plain := by
  rw [mode_snoc, h]; simp [Mode.step, h1, h2]

theorem quoted_fold (q : List Nat) (h : 34 ∉ q) : q.foldl Mode.step .quoted = .quoted := by
  induction q with
  | nil => rfl
  | cons c q ih =>
    simp only [List.mem_cons, not_or] at h
    have : Mode.step .quoted c = .quoted := by simp only [Mode.step]; rw [if_neg (fun e => h.1 e.symm)]
    simp only [List.foldl_cons, this]
    exact ih h.2

theorem mode_open {u q : List Nat} (h : mode u = .plain) (hq : 34 ∉ q) : mode (u ++ 34 :: q) = .quoted := by
  rw [mode_append, h]
  exact quoted_fold q hq

theorem mode_closed {u q : List Nat} (h : mode u = .plain) (hq : 34 ∉ q) : mode (u ++ 34 :: (q ++ [34])) = .plain := by
  have : u ++ 34 :: (q ++ [34]) = (u ++ 34 :: q) ++ [34] := by simp
  rw [this, mode_snoc, mode_open h hq]; rfl

theorem outerFrom_quoted (q : List Nat) (h : 34 ∉ q) (v : List Nat) : outerFrom .quoted (q ++ v) = outerFrom .quoted v := by
  induction q with
  | nil => rfl
  | cons c q ih =>
    simp only [List.mem_cons, not_or] at h
    have : Mode.step .quoted c = .quoted := by simp only [Mode.step]; rw [if_neg (fun e => h.1 e.symm)]
    simp only [List.cons_append, outerFrom, this]
    rw [ih h.2]; rfl

/-- Reading on. -/
theorem Reading.alt_of {s' : WordLoop} {u' rem' : List Nat} (he : u ++ rem = u' ++ rem') (hl : wordLoop n after cw s = wordLoop n after cw s')
    (hs : s'.startWord = s.startWord) (h : Alt n after cw redir fst slash s' u' rem') : Alt n after cw redir fst slash s u rem := by
  rcases h with ⟨w, r, d, rest, redir', h1, h2, h3, h4⟩ | ⟨op, r, redir', s₂, h1, h2, h3, h4⟩
  · exact .inl ⟨w, r, d, rest, redir', he.trans h1, h2, h3, by rw [hl, ← hs]; exact h4⟩
  · exact .inr ⟨op, r, redir', s₂, he.trans h1, h2, hl.trans h3, h4⟩

end

theorem kind_target {cw redir : Bool} : kind cw redir = .target ↔ redir = true := by cases cw <;> cases redir <;> decide

theorem blank_ends {k : Kind} {slash : Bool} {c : Nat} (h : Blank c) : c ∈ k.ends slash := by
  rcases h with rfl | rfl <;> cases k <;> cases slash <;> decide

theorem ends_94 {k : Kind} {slash : Bool} : 94 ∉ k.ends slash ∧ 34 ∉ k.ends slash := by
  cases k <;> cases slash <;> decide

theorem Reading.advance {n : Nat} {cw redir fst slash : Bool} {s s' : WordLoop} {u v rem rem' : List Nat} {c : Nat}
    (h : Reading n cw redir fst slash s u (c :: rem)) (hne : v ≠ []) (hv : c :: rem = v ++ rem') (hi : s'.iter = flat rem')
    (hs : s'.startWord = s.startWord) (hq : s'.inQuote = false) (hn : s'.nextRedir = s.nextRedir) (hr : s'.redirArg = s.redirArg)
    (hst : s'.state = .txt) (hew : s'.endWord = n - (flat rem').length) (hcmd : CmdRep fst s'.cmd (u ++ v))
    (hfs : s'.firstSlash = slash) (hfc : s'.firstChar = false) (hm : mode (u ++ v) = .plain) (hd : u = [] → ∀ d, Digit d → v ≠ [d]) :
    Reading n cw redir fst slash s' (u ++ v) rem' := by
  have hp := h.pos
  rw [hv, flat_append, List.length_append] at hp
  refine ⟨fun x hx => h.text x (by rw [hv]; simp [hx]), hi, ?_, hq, hn.trans h.nextRedir, hr.trans h.redirArg, ?_, ?_, hcmd, ?_, ?_, fun _ => hfc,
    h.fst, ?_, hm⟩
  · rw [flat_append, List.length_append, hs]; omega
  · refine .inr (.inr ⟨hst, by simp [hne], fun d hd' he => ?_⟩)
    cases u with
    | nil => exact hd rfl d hd' he
    | cons a u => simp at he; exact hne he.2.2
  · rw [hst, if_pos rfl, hew, flat_append, List.length_append, hs]; omega
  · intro h1
    rw [List.append_assoc, ← hv]; exact h.head h1
  · rw [hfc]; exact hfs
  · intro h1; simp [hne] at h1

theorem reading_alt {n after : Nat} {cw redir fst slash : Bool} : ∀ (m : Nat) (s : WordLoop) (u rem : List Nat), rem.length ≤ m →
    Reading n cw redir fst slash s u rem → (∀ x ∈ u, IsText x) → IsWord (kind cw redir) slash after fst u rem →
    Alt n after cw redir fst slash s u rem := by
  intro m
  induction m with
  | zero =>
    intro s u rem hm h hu hw
    have : rem = [] := List.length_eq_zero_iff.1 (Nat.le_zero.1 hm)
    subst this
    refine .inl ⟨u, [], 0, [], false, rfl, hw, .stop, ?_⟩
    have := end_out (n := n) (after := after) (cw := cw) (w := u) h.quote h.low h.iter (by simpa [flat] using h.pos) h.cmd.first
    rw [h.nextRedir, h.redirArg] at this
    exact this
  | succ m ih =>
    intro s u rem hm h hu hw
    cases rem with
    | nil =>
      refine .inl ⟨u, [], 0, [], false, rfl, hw, .stop, ?_⟩
      have := end_out (n := n) (after := after) (cw := cw) (w := u) h.quote h.low h.iter (by simpa [flat] using h.pos) h.cmd.first
      rw [h.nextRedir, h.redirArg] at this
      exact this
    | cons c rem =>
      have hm' : rem.length ≤ m := by simpa using hm
      have hr : ∀ x ∈ rem, IsText x := fun x hx => h.text x (by simp [hx])
      have hct : IsText c := h.text c (by simp)
      by_cases ha : Angle c
      · exact alt_op h hu hw ha
      by_cases hcb : c = 94 ∧ redir = false ∧ BlankOrEnd (rem.headD after)
      · obtain ⟨rfl, hrd, hb⟩ := hcb
        have hl := h.caretStop hrd hb
        have hse := h.seenEnd (.inl (wordState_text h.low (by decide) (by unfold Blank; decide) (by unfold Angle; decide) (fun _ => by unfold Digit; decide)))
        have hkt : kind cw redir ≠ .target := by rw [Ne, kind_target, hrd]; decide
        cases rem with
        | nil =>
          refine .inl ⟨u, [94], 0, [], false, rfl, hw, .caretStop hkt hb h.plain, ?_⟩
          rw [hl]
          exact ⟨rfl, hse, rfl, h.nextRedir, h.redirArg, rfl, h.cmd.first⟩
        | cons y rem =>
          have hby : Blank y := by
            rcases hb with hb | hb
            · exact hb
            · rw [List.headD_cons] at hb
              have := hr y (by simp)
              unfold IsText at this; omega
          refine .inl ⟨u, 94 :: y :: rem, y, y :: rem, false, rfl, hw, .caret hkt hby h.plain, ?_⟩
          rw [hl]
          refine ⟨rfl, hse, rfl, h.nextRedir, h.redirArg, ?_, h.cmd.first⟩
          simp only [more_cons hr, if_true, List.headD_cons]
          unfold Blank at hby; omega
      have hcar : (s.seen n).caret after = c := by
        apply h.caret
        intro h94
        by_cases h1 : redir = true
        · exact .inl h1
        · right
          intro h2
          exact hcb ⟨h94, by simpa using h1, h2⟩
      have hstep := h.step hcar
      dsimp only at hstep
      by_cases hb : Blank c
      · have hsp := wordState_blank h.low hb
        have hne : c ≠ 94 ∧ c ≠ 47 := by unfold Blank at hb; omega
        rw [hsp] at hstep
        simp only [reduceCtorEq, if_false, hne.1, hne.2, false_and, decide_false, Bool.or_self, Bool.false_eq_true, true_or, if_true] at hstep
        refine .inl ⟨u, c :: rem, _, rem, false, rfl, hw, .sep (blank_ends hb) hne.2 ?_ h.plain, ?_⟩
        · rintro ⟨-, -, h3⟩
          unfold Blank at hb
          simp at h3; omega
        · rw [hstep]
          refine ⟨rfl, h.seenEnd (.inr hsp), rfl, h.nextRedir, h.redirArg, ?_, h.cmd.first⟩
          show (if more (flat rem) then peek s.iter % 256 else 0) = _
          rw [h.peek]
          cases rem with
          | nil => rfl
          | cons y r =>
            rw [if_pos (more_cons hr), if_neg (by simp)]
            unfold Blank at hb; omega
      · by_cases hdg : s.state = .spc ∧ Digit c
        · obtain ⟨hsp, hd⟩ := hdg
          have hdig := wordState_digit hd
          have hu0 : u = [] := by
            rcases h.state with ⟨-, h1⟩ | ⟨h1, -⟩ | ⟨h1, -⟩
            · exact h1
            · rw [h1] at hsp; cases hsp
            · rw [h1] at hsp; cases hsp
          subst hu0
          have hne : c ≠ 94 ∧ c ≠ 47 ∧ c ≠ 34 := by unfold Digit at hd; omega
          have h34 : (c == 34) = false := by simp [hne.2.2]
          rw [hsp, hdig] at hstep
          simp only [reduceCtorEq, if_false, hne.1, hne.2.1, false_and, decide_false, Bool.or_self, Bool.false_eq_true, or_self, h34] at hstep
          have hse : (s.seen n).endWord = s.startWord := by
            simp only [WordLoop.seen, h.peek, hsp, hdig]
            rw [if_neg (by simp), h.endWord, hsp, if_neg (by decide)]
          have hnb : ¬ Breaks fst [] c := by
            rintro ⟨-, -, h3⟩
            unfold Digit at hd
            simp at h3; omega
          have hnd : c ∉ (kind cw redir).ends slash := by
            intro h3
            have : ∀ k sl, c ∉ Kind.ends sl k := by
              intro k sl
              unfold Digit at hd
              cases k <;> cases sl <;> simp [Kind.ends, wordSeps, nameSeps] <;> omega
            exact this _ _ h3
          refine Reading.alt_of (u' := [c]) (rem' := rem) rfl hstep rfl (ih _ _ _ hm' ?_ (by simpa using hct) ?_)
          · have hp := h.pos
            refine ⟨hr, rfl, ?_, rfl, h.nextRedir, h.redirArg, .inr (.inl ⟨rfl, c, hd, rfl⟩), ?_, ?_, h.head, ?_, fun _ => rfl, h.fst, by simp, ?_⟩
            · show s.startWord + _ + _ = n
              rw [← hp, Nat.add_assoc, Nat.add_assoc, ← List.length_append, ← flat_append, ← List.length_append, ← flat_append]; rfl
            · exact hse
            · refine h.cmd.congr ?_
              have : outer [c] = [] := by
                unfold Digit at hd
                simp [outer, dropDigit, hd, outerFrom]
              rw [this]; rfl
            · exact h.seenSlash
            · exact mode_char (u := []) rfl hne.1 hne.2.2
          · refine hw.snoc (u := []) (v := []) ?_ hnb (by simp)
            rintro (h3 | h3 | h3)
            · exact hnd h3
            · exact ha h3
            · exact hne.1 h3.1
        · have htx : wordState s.state c = .txt := wordState_text h.low h.ne0 hb ha (fun e hd => hdg ⟨e, hd⟩)
          have hse := h.seenEnd (.inl htx)
          have htb := test_break h.cmd h.ne0 hb ha
          rw [htx] at hstep
          simp only [if_true, reduceCtorEq, false_or, true_and] at hstep
          by_cases hbr : Breaks fst u c ∨ c = 47 ∧ c ∈ (kind cw redir).ends slash
          · have h1 : ((s.cmd.test c .txt).1 || decide (c = 47 ∧ c ∈ (kind cw redir).ends slash)) = true := by
              rcases hbr with h1 | h1
              · rw [htb.2 h1]; rfl
              · rw [decide_eq_true h1]; simp
            rw [if_pos h1] at hstep
            refine .inl ⟨u, c :: rem, c, c :: rem, false, rfl, hw, .break_ hbr h.plain, ?_⟩
            rw [hstep]
            refine ⟨rfl, hse, h.iter, h.nextRedir, h.redirArg, ?_, by rw [test_first]; exact h.cmd.first⟩
            show (if more s.iter then peek s.iter % 256 else 0) = c
            rw [if_pos h.more, h.peek]
            have : c < 128 := by
              rcases hbr with ⟨-, -, h3⟩ | ⟨h3, -⟩
              · simp at h3; omega
              · omega
            omega
          · have hbr1 : ¬ Breaks fst u c := fun h1 => hbr (.inl h1)
            have ht0 : (s.cmd.test c .txt).1 = false := by
              cases h1 : (s.cmd.test c .txt).1 with
              | false => rfl
              | true => exact absurd (htb.1 h1) hbr1
            have h1 : ¬ ((s.cmd.test c .txt).1 || decide (c = 47 ∧ c ∈ (kind cw redir).ends slash)) = true := by
              rw [ht0, decide_eq_false (fun h1 => hbr (.inr h1))]; decide
            rw [if_neg h1] at hstep
            by_cases hen : c ∈ (kind cw redir).ends slash
            · have h47 : c ≠ 47 := fun e => hbr (.inr ⟨e, hen⟩)
              have h94 : c ≠ 94 := fun e => ends_94.1 (e ▸ hen)
              rw [if_pos hen, if_neg h94] at hstep
              refine .inl ⟨u, c :: rem, _, rem, false, rfl, hw, .sep hen h47 hbr1 h.plain, ?_⟩
              rw [hstep]
              refine ⟨rfl, hse, rfl, h.nextRedir, h.redirArg, ?_, by rw [test_first]; exact h.cmd.first⟩
              show (if more (flat rem) then peek s.iter % 256 else 0) = _
              rw [h.peek]
              have : c < 128 := by
                have : ∀ k sl, ∀ x ∈ Kind.ends sl k, x < 128 := by
                  intro k sl
                  cases k <;> cases sl <;> decide
                exact this _ _ _ hen
              cases rem with
              | nil => rfl
              | cons y r =>
                rw [if_pos (more_cons hr), if_neg (by simp)]
                omega
            · rw [if_neg hen] at hstep
              have hns : fst = true → c ∉ nameSeps := by
                intro hf hc
                obtain ⟨rfl, rfl⟩ := h.fst hf
                apply hen
                show c ∈ if slash then nameSeps else 47 :: nameSeps
                split
                · exact hc
                · simp [hc]
              have hud : u = [] → s.state = .spc := by
                intro hu0
                rcases h.state with ⟨h1, -⟩ | ⟨-, d, -, h1⟩ | ⟨-, h1, -⟩
                · exact h1
                · rw [hu0] at h1; cases h1
                · exact absurd hu0 h1
              have hnd : u = [] → ¬ Digit c := fun hu0 hd => hdg ⟨hud hu0, hd⟩
              have hout : ∀ v, outer (u ++ c :: v) = outer u ++ outerFrom .plain (c :: v) := by
                intro v
                rw [outer_append (by intro hu0 x hx; simp at hx; subst hx; exact hnd hu0), h.plain]
              have hee : ∀ v, (c = 94 → redir = true ∨ ¬ BlankOrEnd (v.headD after)) → ¬ EndsWord (kind cw redir) slash after c v := by
                rintro v hv (h3 | h3 | ⟨h3, h4, h5⟩)
                · exact hen h3
                · exact ha h3
                · rcases hv h3 with h6 | h6
                  · exact h4 (kind_target.2 h6)
                  · exact h6 h5
              by_cases h94 : c = 94
              · subst h94
                have hnb : redir = true ∨ ¬ BlankOrEnd (rem.headD after) := by
                  by_cases h1 : redir = true
                  · exact .inl h1
                  · exact .inr fun h2 => hcb ⟨rfl, by simpa using h1, h2⟩
                rw [if_pos rfl] at hstep
                have h34 : ((94 : Nat) == 34) = false := rfl
                rw [h34] at hstep
                cases rem with
                | nil =>
                  have hit : next (flat []) = [] := by decide
                  rw [hit] at hstep
                  refine .inl ⟨u ++ [94], [], 0, [], false, by simp, hw.snoc (v := []) (hee [] fun _ => hnb) hbr1 (by simp), .stop, ?_⟩
                  have hp := h.pos
                  have := end_out (n := n) (after := after) (cw := cw) (w := u ++ [94]) (s₁ := { s.seen n with
                    cmd := (s.cmd.test 94 .txt).2, iter := [], endWord := n - ([] : List Nat).length, inQuote := false, state := .txt, firstChar := false })
                    rfl rfl rfl (by rw [flat_append, List.length_append, ← Nat.add_assoc]; exact hp) (by
                      show (s.cmd.test 94 .txt).2.first = false
                      rw [test_first]; exact h.cmd.first)
                  rw [hstep]
                  refine ⟨this.1, this.2, this.3, ?_, ?_, this.6, this.7⟩
                  · rw [this.4]; exact h.nextRedir
                  · rw [this.5]; exact h.redirArg
                | cons y rem =>
                  rw [next_cons hr] at hstep
                  refine Reading.alt_of (u' := u ++ [94, y]) (rem' := rem) (by simp) hstep rfl (ih _ _ _ (by simp at hm'; omega) ?_ ?_ ?_)
                  · refine h.advance (v := [94, y]) (by simp) rfl rfl rfl rfl rfl rfl rfl rfl ?_ h.seenSlash rfl (mode_caret h.plain y) (by simp)
                    exact test_rep h.cmd (by decide) hns (by rw [hout]; rfl) ht0
                  · intro x hx
                    simp only [List.mem_append, List.mem_cons, List.not_mem_nil, or_false] at hx
                    rcases hx with hx | rfl | rfl
                    · exact hu x hx
                    · exact hct
                    · exact hr x (by simp)
                  · refine hw.snoc (v := [y]) (hee _ fun _ => hnb) hbr1 ?_
                    intro p x r hp
                    cases p with
                    | nil => rw [mode_snoc, h.plain]; decide
                    | cons a p => simp at hp
              · rw [if_neg h94] at hstep
                have hee' : ∀ v, ¬ EndsWord (kind cw redir) slash after c v := fun v => hee v (fun e => absurd e h94)
                by_cases h34 : c = 34
                · subst h34
                  have hrep : ∀ q, 34 ∉ q → CmdRep fst (s.cmd.test 34 .txt).2 (u ++ 34 :: (q ++ [34])) := by
                    intro q hq
                    refine test_rep h.cmd (by decide) hns ?_ ht0
                    rw [hout, show outerFrom .plain (34 :: (q ++ [34])) = 34 :: outerFrom .quoted (q ++ [34]) from rfl, outerFrom_quoted q hq]
                    rfl
                  have hwq : ∀ q e r, rem = (q ++ e) ++ r → 34 ∉ q → (e = [] ∨ e = [34]) → IsWord (kind cw redir) slash after fst (u ++ 34 :: (q ++ e)) r := by
                    intro q e r hqr hq he
                    refine Spec.IsWord.snoc (hqr ▸ hw) (hee' _) hbr1 ?_
                    intro p x r hp
                    have h5 : 34 ∉ p := by
                      rcases List.append_eq_append_iff.1 hp with ⟨a, ha, hr'⟩ | ⟨a, ha, hr'⟩
                      · have : a = [] := by
                          rcases he with rfl | rfl
                          · have := congrArg List.length hr'; simp at this
                          · have := congrArg List.length hr'; simp at this
                            exact List.length_eq_zero_iff.1 (by omega)
                        rw [ha, this]; simpa using hq
                      · intro h6; apply hq; rw [ha]; simp [h6]
                    rw [mode_open h.plain h5]; decide
                  have h34' : ((34 : Nat) == 34) = true := rfl
                  rw [h34'] at hstep
                  rcases wordLoop_quote (n := n) (after := after) (cw := cw) rem { s.seen n with
                    cmd := (s.cmd.test 34 .txt).2, iter := flat rem, endWord := n - (flat rem).length, inQuote := true, state := .txt, firstChar := false }
                    hr rfl rfl with ⟨h2, s', h3, h4, h5, h6⟩ | ⟨q, r, s', h2, h3, h4, h5, h6, h7, h8, h9⟩
                  · refine .inl ⟨u ++ 34 :: rem, [], 0, [], false, by simp, ?_, .stop, ?_⟩
                    · have := hwq rem [] [] (by simp) h2 (.inl rfl)
                      simpa using this
                    · have hp := h.pos
                      rw [hstep, h3]
                      refine ⟨h4.startWord, ?_, h5, h4.nextRedir.trans h.nextRedir, h4.redirArg.trans h.redirArg, by rw [h5]; rfl, ?_⟩
                      · rw [h6, flat_append, List.length_append]
                        split
                        · rename_i h7
                          subst h7
                          show n - 0 = _
                          rw [Nat.add_assoc, ← List.length_append, ← flat_append, flat_append, List.length_append] at hp
                          omega
                        · omega
                      · rw [h4.cmd]
                        show (s.cmd.test 34 .txt).2.first = false
                        rw [test_first]; exact h.cmd.first
                  · subst h2
                    refine Reading.alt_of (u' := u ++ 34 :: (q ++ [34])) (rem' := r) (by simp) (hstep.trans h4) h5.startWord
                      (ih _ _ _ (by simp at hm'; omega) ?_ ?_ (hwq q [34] r (by simp) h3 (.inr rfl)))
                    · exact h.advance (v := 34 :: (q ++ [34])) (by simp) (by simp) h7 h5.startWord h6 h5.nextRedir h5.redirArg h5.state h8
                        (by rw [h5.cmd]; exact hrep q h3) (h5.firstSlash.trans h.seenSlash) h9 (mode_closed h.plain h3) (by simp)
                    · intro x hx
                      simp only [List.mem_append, List.mem_cons, List.not_mem_nil, or_false] at hx
                      rcases hx with hx | rfl | hx | rfl
                      · exact hu x hx
                      · exact hct
                      · exact hr x (by simp [hx])
                      · exact hct
                · have h34' : (c == 34) = false := by simp [h34]
                  rw [h34'] at hstep
                  refine Reading.alt_of (u' := u ++ [c]) (rem' := rem) (by simp) hstep rfl (ih _ _ _ hm' ?_ ?_ ?_)
                  · refine h.advance (v := [c]) (by simp) rfl rfl rfl rfl rfl rfl rfl rfl ?_ h.seenSlash rfl (mode_char h.plain h94 h34) ?_
                    · exact test_rep h.cmd h.ne0 hns (by rw [hout]; rfl) ht0
                    · intro hu0 d hd he
                      simp at he; subst he
                      exact hnd hu0 hd
                  · intro x hx
                    simp only [List.mem_append, List.mem_cons, List.not_mem_nil, or_false] at hx
                    rcases hx with hx | rfl
                    · exact hu x hx
                    · exact hct
                  · exact hw.snoc (v := []) (hee' _) hbr1 (by simp)


theorem Operator.ne {op r : List Nat} {b : Bool} (h : Operator op r b) : op ≠ [] := by
  have key : ∀ o, Redir o → o ≠ [] := by
    intro o ho
    unfold Redir at ho
    rcases ho with rfl | rfl | rfl | rfl <;> simp
  cases h with
  | plain h1 _ => exact key _ h1
  | _ => simp

/-- Where `start_new_word` leaves the variables. -/
theorem startNew_reading {n : Nat} {cw redir fst cont : Bool} {s : WordLoop} {text : List Nat} (ht : ∀ x ∈ text, IsText x)
    (hi : s.iter = flat text) (hr : s.nextRedir = redir) (hst : s.state = .spc) (hq : s.inQuote = false) (hc : s.firstChar = !cont)
    (hfs : s.firstSlash = false) (hcmd : CmdRep fst s.cmd.nextWord []) (hfst : fst = true → cw = true ∧ redir = false)
    (hn : (flat text).length ≤ n) :
    ∃ sp t, text = sp ++ t ∧ Seps (kind cw redir).before sp ∧ ¬ AtSep (kind cw redir).before t ∧
      Reading n cw redir fst (cont = false ∧ t.head? = some 47) (s.startNew n cw) [] t ∧
      (s.startNew n cw).startWord = n - (flat text).length + (flat sp).length := by
  obtain ⟨sp, t, h1, h2, h3, h4⟩ := skipSeps_flat (ds := (kind cw redir).before) (before_94 _) text.length text (Nat.le_refl _) ht
  have h5 : skipSeps (getDelims cw s.nextRedir false) s.iter = flat t := by rw [hr, hi, getDelims_before, h4]
  have h6 : (flat text).length = (flat sp).length + (flat t).length := by rw [h1, flat_append, List.length_append]
  have h7 : (s.startNew n cw).startWord = n - (flat t).length := by
    show n - (skipSeps (getDelims cw s.nextRedir false) s.iter).length = _
    rw [h5]
  refine ⟨sp, t, h1, h2, h3, ⟨fun x hx => ht x (by rw [h1]; simp [hx]), h5, ?_, hq, rfl, hr, .inl ⟨hst, rfl⟩, ?_, hcmd, ?_, ?_, by simp, hfst, fun _ => h3, rfl⟩, ?_⟩
  · rw [h7]; simp [flat] at h6 hn ⊢; omega
  · rw [if_neg (by show s.state ≠ _; rw [hst]; decide)]
    rfl
  · intro h8
    have := of_decide_eq_true h8
    exact this.2
  · show (if s.firstChar then _ else s.firstSlash) = _
    rw [hc, hfs]
    cases cont <;> simp
  · rw [h7]; omega

theorem Spec.After.suffix {k : Kind} {slash fst redir' : Bool} {after delim : Nat} {w r rest : List Nat}
    (h : After k slash after fst w r delim rest redir') : rest <:+ r := by
  cases h with
  | stop => exact List.suffix_refl _
  | caretStop => exact List.nil_suffix
  | caret => exact List.suffix_cons _ _
  | sep => exact List.suffix_cons _ _
  | break_ => exact List.suffix_refl _
  | redirection => exact List.suffix_append _ _

/-- The loop finds the next word. -/
theorem next_word {n after : Nat} {cw : Bool} : ∀ (k : Nat) (text : List Nat) (redir fst cont : Bool) (s : WordLoop), text.length < k →
    (∀ x ∈ text, IsText x) → s.iter = flat text → s.nextRedir = redir → s.state = .spc → s.inQuote = false → s.firstChar = !cont →
    s.firstSlash = false → CmdRep fst s.cmd.nextWord [] → (fst = true → cw = true ∧ redir = false) → (flat text).length ≤ n →
    ∃ tok rest redir', NextWord after cw redir fst cont (n - (flat text).length) text tok rest redir' ∧
      (wordLoop n after cw (s.startNew n cw)).startWord = tok.1 ∧
      (wordLoop n after cw (s.startNew n cw)).endWord = tok.1 + tok.2.1 ∧
      (if more (wordLoop n after cw (s.startNew n cw)).iter then (wordLoop n after cw (s.startNew n cw)).c % 256 else 0) = tok.2.2.1 ∧
      (wordLoop n after cw (s.startNew n cw)).redirArg = tok.2.2.2 ∧
      (wordLoop n after cw (s.startNew n cw)).iter = flat rest ∧
      (wordLoop n after cw (s.startNew n cw)).nextRedir = redir' ∧
      (wordLoop n after cw (s.startNew n cw)).cmd.first = false := by
  intro k
  induction k with
  | zero => intro text redir fst cont s hk; omega
  | succ k ih =>
    intro text redir fst cont s hk ht hi hr hst hq hc hfs hcmd hfst hn
    obtain ⟨sp, t, h1, h2, h3, h4, h5⟩ := startNew_reading ht hi hr hst hq hc hfs hcmd hfst hn
    rcases reading_alt (after := after) t.length _ [] t (Nat.le_refl _) h4 (by simp) (by intro p c r h; simp at h) with
      ⟨w, r, d, rest, redir', h6, h7, h8, h9⟩ | ⟨op, r, redir', s₂, h6, h7, h8, h9, h10, h11, h12, h13, h14, h15⟩
    · rw [List.nil_append] at h6
      subst h6
      subst h1
      exact ⟨_, rest, redir', .word h2 h3 h7 h8, h9.startWord.trans h5, by rw [h9.endWord, h5], h9.delim, h9.redirArg, h9.iter, h9.nextRedir, h9.first⟩
    · rw [List.nil_append] at h6
      subst h6
      subst h1
      have hop := Operator.ne h7
      have hop' : 0 < op.length := List.length_pos_iff.2 hop
      have hl : (flat (sp ++ (op ++ r))).length = (flat (sp ++ op)).length + (flat r).length := by
        rw [← List.append_assoc, flat_append, List.length_append]
      obtain ⟨tok, rest, redir'', h16, h17⟩ := ih r redir' false true s₂ (by simp at hk; omega) (fun x hx => ht x (by simp [hx])) h9 h10 h11 h12 h13 h14
        ⟨nextWord_first _, fun _ => by simp [CmdState.nextWord, h15], by simp, by simp, by simp⟩ (by simp) (by omega)
      rw [h8]
      refine ⟨tok, rest, redir'', .redirection h2 h7 ?_, h17⟩
      rwa [show n - (flat (sp ++ (op ++ r))).length + (flat (sp ++ op)).length = n - (flat r).length by omega]

/-- What is left is shorter. -/
theorem Spec.NextWord.shorter {after : Nat} {cw redir fst cont redir' : Bool} {pos : Nat} {text rest : List Nat} {t : Nat × Nat × Nat × Bool}
    (h : NextWord after cw redir fst cont pos text t rest redir') : rest <:+ text ∧ (cont = false → text ≠ [] → rest.length < text.length) := by
  induction h with
  | @word redir fst cont pos s w r delim rest redir' h1 h2 h3 h4 =>
    have h5 := h4.suffix
    refine ⟨h5.trans ((List.suffix_append _ _).trans (List.suffix_append _ _)), fun hc hne => ?_⟩
    subst hc
    have h6 := h5.length_le
    simp only [List.length_append]
    cases h4 with
    | stop =>
      cases s <;> cases w <;> simp at hne ⊢ <;> omega
    | caretStop => simp; omega
    | caret => simp; omega
    | sep => simp; omega
    | redirection hr =>
      have : 0 < w.length := List.length_pos_iff.2 (by assumption)
      simp; omega
    | @break_ c r hb =>
      have : 0 < w.length := by
        refine List.length_pos_iff.2 ?_
        rintro rfl
        rcases hb with ⟨-, h7, -⟩ | ⟨rfl, h7⟩
        · obtain ⟨-, -, h8⟩ := h7
          exact absurd h8 (by decide)
        · revert h7
          simp only [List.nil_append, List.head?_cons, and_self, decide_true]
          generalize kind cw redir = k
          cases k <;> decide
      omega
  | @redirection redir fst cont pos s op r redir' t rest redir'' h1 h2 h3 ih =>
    refine ⟨ih.1.trans ((List.suffix_append _ _).trans (List.suffix_append _ _)), fun _ _ => ?_⟩
    have := ih.1.length_le
    have := List.length_pos_iff.2 (Operator.ne h2)
    simp; omega

theorem tokens_words {n after : Nat} : ∀ (k : Nat) (text : List Nat) (redir fst : Bool) (t : WordTok), text.length < k →
    (∀ x ∈ text, IsText x) → t.iter = flat text → t.nextRedir = redir → CmdRep fst t.cmd.nextWord [] →
    (fst = true → t.commandWord = true ∧ redir = false) → (flat text).length ≤ n →
    ∃ ts, WordsOf after n t.commandWord redir fst text ts ∧ tokens n after t = some (ts.map fun x => ⟨x.1, x.2.1, x.2.2.1, x.2.2.2⟩) := by
  intro k
  induction k with
  | zero => intro text redir fst t hk; omega
  | succ k ih =>
    intro text redir fst t hk ht hi hr hcmd hfst hn
    rw [tokens]
    cases text with
    | nil => exact ⟨[], .nil, by rw [hi, if_neg (by decide)]; rfl⟩
    | cons c text =>
      rw [hi, if_pos (more_cons ht)]
      obtain ⟨s0, hs0⟩ : ∃ s0 : WordLoop, s0 = { iter := t.iter, nextRedir := t.nextRedir, cmd := t.cmd, redirArg := false, startWord := 0, endWord := 0 } :=
        ⟨_, rfl⟩
      obtain ⟨tok, rest, redir', h1, h2, h3, h4, h5, h6, h7, h8⟩ := next_word (n := n) (after := after) (cw := t.commandWord) (c :: text).length.succ (c :: text) redir fst false
        s0 (Nat.lt_succ_self _) ht (by rw [hs0]; exact hi) (by rw [hs0]; exact hr) (by rw [hs0]) (by rw [hs0]) (by rw [hs0]; rfl) (by rw [hs0])
        (by rw [hs0]; exact hcmd) hfst hn
      have hnx : t.next n after = (⟨tok.1, tok.2.1, tok.2.2.1, tok.2.2.2⟩,
          ⟨flat rest, redir', (wordLoop n after t.commandWord (s0.startNew n t.commandWord)).cmd, t.commandWord && tok.2.2.2⟩) := by
        unfold WordTok.next
        dsimp only
        rw [← hs0, h2, h3, h4, h5, h6, h7, Nat.add_sub_cancel_left]
        cases tok.2.2.2 <;> simp
      generalize wordLoop n after t.commandWord (s0.startNew n t.commandWord) = o at *
      rw [hnx]
      dsimp only
      by_cases h255 : tok.2.2.1 = 255
      · rw [if_pos h255]
        exact ⟨[], .lost (by simp) h1 h255, rfl⟩
      · rw [if_neg h255]
        have hsh := h1.shorter
        have hlt := hsh.2 rfl (by simp)
        have hfl : (flat rest).length < (flat (c :: text)).length := by
          obtain ⟨a, ha⟩ := hsh.1
          rw [← ha, flat_append, List.length_append]
          have : a ≠ [] := by rintro rfl; rw [← ha] at hlt; simp at hlt
          have := flat_pos' this (fun x hx => ht x (by rw [← ha]; simp [hx]))
          omega
        rw [if_pos hfl]
        obtain ⟨ts, h9, h10⟩ := ih rest redir' false ⟨flat rest, redir', o.cmd, t.commandWord && tok.2.2.2⟩ (by simp at hk hlt; omega)
          (fun x hx => ht x (hsh.1.subset hx)) rfl rfl
          ⟨nextWord_first _, fun _ => by simp [CmdState.nextWord, h8], by simp, by simp, by simp⟩ (by simp) (by omega)
        rw [h10]
        exact ⟨tok :: ts, .cons (by simp) h1 h255 h9, rfl⟩

end Clink.Tokens
