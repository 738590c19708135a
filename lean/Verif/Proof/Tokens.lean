import Verif.Model.Tokens
import Verif.Spec.Tokens
import Verif.Proof.DoskeyArgs

namespace Clink.Tokens

open Utf (more next8 IsText specUtf8)
open Doskey Doskey.Spec Tokens.Spec

/-! Modes and visible text. -/

theorem mode_append (u v : List Nat) : mode (u ++ v) = v.foldl Mode.step (mode u) := by simp [mode]

theorem mode_snoc (u : List Nat) (c : Nat) : mode (u ++ [c]) = (mode u).step c := by simp [mode]

theorem visibleFrom_append (m : Mode) (u v : List Nat) :
    visibleFrom m (u ++ v) = visibleFrom m u ++ visibleFrom (u.foldl Mode.step m) v := by
  induction u generalizing m with
  | nil => rfl
  | cons c r ih => simp [visibleFrom, ih]

theorem visible_snoc (u : List Nat) (c : Nat) : visible (u ++ [c]) = visible u ++ (if mode u = .plain ∧ c ≠ 94 then [c] else []) := by
  rw [visible, visibleFrom_append]
  simp only [visibleFrom, mode, visible, List.append_nil]
  congr 1

theorem Spec.Remark.mono {u : List Nat} (h : Remark u) (v : List Nat) : Remark (u ++ v) := by
  obtain ⟨p, w, d, r, rfl, h1, h2, h3, h4, h5⟩ := h
  exact ⟨p, w, d, r ++ v, by simp, h1, h2, h3, h4, h5⟩

theorem Spec.PlainRemark.mono {u : List Nat} (h : PlainRemark u) (v : List Nat) : PlainRemark (u ++ v) := by
  obtain ⟨p, w, d, r, rfl, h1, h2, h3⟩ := h
  exact ⟨p, w, d, r ++ v, by simp, h1, h2, h3⟩

theorem Spec.Started.mono {u : List Nat} (h : Started u) (v : List Nat) : Started (u ++ v) := by
  obtain ⟨x, c, y, rfl, h1, h2⟩ := h
  exact ⟨x, c, y ++ v, by simp, h1, h2⟩

/-! The invariant of the loop. -/

/-- What the state says about the text read. -/
def StateOk (st : St) (u : List Nat) : Prop :=
  match st with
  | .txt => True
  | .spc => u = [] ∨ ∃ q c, u = q ++ [c] ∧ Blank c
  | .dig => ∃ p d, u = p ++ [d] ∧ Digit d ∧ Before p
  | .in_ | .out | .in2 | .out2 => ∃ q d, u = q ++ [d] ∧ Angle d ∧ mode q = .plain
  | .din => ∃ p d, u = p ++ [d, 60] ∧ Digit d ∧ Before p
  | .dout => ∃ p d, u = p ++ [d, 62] ∧ Digit d ∧ Before p
  | .din2 => ∃ p d, u = p ++ [d, 60, 60] ∧ Digit d ∧ Before p
  | .dout2 => ∃ p d, u = p ++ [d, 62, 62] ∧ Digit d ∧ Before p
  | .reAm => ∃ q, u = q ++ [38]
  | .amDi => ∃ q d, u = q ++ [38, d] ∧ Digit d
  | .break_ | .arg | .valid | .bad => False

theorem StateOk.before {st : St} {u : List Nat} (h : StateOk st u) (hs : st ≠ .txt) (hd : st ≠ .dig) (hr : st ≠ .reAm) : Before u := by
  unfold Before
  cases st <;> simp only [StateOk, ne_eq, not_true_eq_false] at h hs hd hr
  · rcases h with h | ⟨q, c, h, hb⟩
    · exact .inl h
    · exact .inr (.inl ⟨q, c, h, .inl hb⟩)
  all_goals first
    | (obtain ⟨q, d, h, ha, -⟩ := h; exact .inr (.inl ⟨q, d, h, .inr ha⟩))
    | (obtain ⟨q, d, h, ha⟩ := h; exact .inr (.inr ⟨q, d, h, ha⟩))
    | skip
  all_goals obtain ⟨q, d, h, ha, -⟩ := h
  · exact .inr (.inl ⟨q ++ [d], 60, by simp [h], .inr (.inl rfl)⟩)
  · exact .inr (.inl ⟨q ++ [d], 62, by simp [h], .inr (.inr rfl)⟩)
  · exact .inr (.inl ⟨q ++ [d, 60], 60, by simp [h], .inr (.inl rfl)⟩)
  · exact .inr (.inl ⟨q ++ [d, 62], 62, by simp [h], .inr (.inr rfl)⟩)

theorem StateOk.handle {st : St} {u : List Nat} (h : StateOk st u) (hs : st ∈ [.din, .dout, .din2, .dout2]) : Handle u := by
  cases st <;> simp only [List.mem_cons, List.not_mem_nil, reduceCtorEq, or_false, false_or, or_true, true_or, or_self] at hs
  all_goals
    obtain ⟨p, d, h, hd, hp⟩ := h
    exact ⟨p, d, _, h, hd, by simp [Redir], hp⟩

/-- What the text read says about the state. -/
structure Forced (st : St) (u : List Nat) : Prop where
  start : WordStart u → st = .spc
  digit : ∀ p d, u = p ++ [d] → Digit d → WordStart p → st = .dig
  lt : ∀ p d, u = p ++ [d, 60] → Digit d → WordStart p → st = .din
  gt : ∀ p d, u = p ++ [d, 62] → Digit d → WordStart p → st = .dout
  lt2 : ∀ p d, u = p ++ [d, 60, 60] → Digit d → WordStart p → st = .din2
  gt2 : ∀ p d, u = p ++ [d, 62, 62] → Digit d → WordStart p → st = .dout2

/-- A character that does not occur in `rem`. -/
def Hopeless (w : List Nat) : Prop := ∃ x ∈ w, x ≠ 94 ∧ lowerCase x ∉ [114, 101, 109]

/-- What `cmd_state` has seen. -/
def CmdOk (s : CmdLoop) (u : List Nat) : Prop :=
  s.cmd.onlyRem = true ∧
  (s.cmd.failed = false →
    (s.cmd.isMatch = true → IsRem (s.cmd.word.filter (· ≠ 94)) ∧ (Remark u ∨ s.isArg = false ∧ s.state.low = true ∧ s.anyText = true ∧
      ∃ p w, u = p ++ w ∧ Lead p ∧ mode p = .plain ∧ IsRem (visible w))) ∧
    (s.cmd.word = [] ∧ Lead u ∧ (s.isArg = true ∨ s.state.low = false → InTarget u) ∨
     Hopeless s.cmd.word ∨
     (s.cmd.word ≠ [] ∧ ∃ p w, u = p ++ w ∧ Lead p ∧ mode p = .plain ∧ s.cmd.word.filter (· ≠ 94) = visible w) ∨
     s.cmd.word ≠ [] ∧ (s.isArg = true ∨ s.state.low = false)))

/-- What the text read says about `cmd_state`. -/
def CmdForced (s : CmdLoop) (u : List Nat) : Prop :=
  (∀ p w, u = p ++ w → (∀ c ∈ p, c ∈ [32, 9, 40, 64]) → w.map lowerCase <+: [114, 101, 109] →
    s.cmd.failed = false ∧ s.cmd.word = w ∧ s.isArg = false ∧ (s.state = .txt ∨ s.state = .spc) ∧ (IsRem w → s.cmd.isMatch = true)) ∧
  ¬ PlainRemark u

/-- Separators in the text are allowed ones.  `al`: there was an alias. -/
def Good (al : Bool) (t : List Nat) : Prop :=
  ∀ x s y, t = x ++ s :: y → IsSep s → mode x = .plain → s = 38 ∧ Handle x ∨ al = false ∧ (Idle x ∨ Remark x)

structure Core (al : Bool) (s : CmdLoop) (u : List Nat) : Prop where
  quote : s.inQuote = true → s.state = .txt
  state : StateOk s.state u
  forced : Forced s.state u
  any : s.anyText = false → al = false ∧ Idle u
  text : s.anyText = true → al = true ∨ Started u
  cmd : if al then s.cmd.failed = true else CmdOk s u ∧ CmdForced s u
  good : Good al u

structure Inv (al : Bool) (s : CmdLoop) (u : List Nat) : Prop extends Core al s u where
  mode : mode u = if s.inQuote then .quoted else .plain

theorem Good.snoc {al : Bool} {u : List Nat} {c : Nat} (h : Good al u)
    (hc : IsSep c → Spec.mode u = .plain → c = 38 ∧ Handle u ∨ al = false ∧ (Idle u ∨ Remark u)) : Good al (u ++ [c]) := by
  intro x s y he hs hm
  rcases List.eq_nil_or_concat y with rfl | ⟨y', d, rfl⟩
  · obtain ⟨rfl, h2⟩ := List.append_inj' he rfl
    simp only [List.cons.injEq, and_true] at h2
    subst h2
    exact hc hs hm
  · have : x ++ s :: (y' ++ [d]) = (x ++ s :: y') ++ [d] := by simp
    rw [List.concat_eq_append, this] at he
    obtain ⟨h1, h2⟩ := List.append_inj' he rfl
    exact h x s y' h1 hs hm

/-- What the type of a character says about it. -/
theorem inputType_iff {c : Nat} (hc : c ≠ 0) :
    match inputType c with
    | .spc => Blank c
    | .dig => Digit c
    | .lt => c = 60
    | .gt => c = 62
    | .amp => c = 38
    | .pipe => c = 124
    | .txt => ¬ Blank c ∧ ¬ Digit c ∧ ¬ Angle c ∧ ¬ IsSep c := by
  by_cases h1 : c = 32 ∨ c = 9 ∨ c = 0
  · simp only [inputType, h1, if_true, Blank]; omega
  by_cases h2 : 48 ≤ c ∧ c ≤ 57
  · simp only [inputType, h1, h2, if_true, if_false, Digit, and_self]
  by_cases h3 : c = 60
  · simp only [inputType, h1, h2, h3, if_true, if_false]; simp
  by_cases h4 : c = 62
  · simp only [inputType, h1, h2, h3, h4, if_true, if_false]; simp
  by_cases h5 : c = 38
  · simp only [inputType, h1, h2, h3, h4, h5, if_true, if_false]; simp
  by_cases h6 : c = 124
  · simp only [inputType, h1, h2, h3, h4, h5, h6, if_true, if_false]; simp
  rw [show inputType c = .txt by simp [inputType, h1, h2, h3, h4, h5, h6]]
  unfold Blank Digit Angle IsSep
  exact ⟨by omega, by omega, by omega, by omega⟩

theorem state_step {al : Bool} {s : CmdLoop} {u : List Nat} (h : Inv al s u) (hq : s.inQuote = false) {c : Nat} (hc : c ≠ 0)
    (hb : s.newState c ≠ .break_) : StateOk (s.newState c) (u ++ [c]) := by
  have hi := inputType_iff hc
  have hs := h.state
  have hm := h.mode
  simp only [hq, Bool.false_eq_true, if_false] at hm
  unfold CmdLoop.newState CmdLoop.rawState at *
  generalize s.newAny c = any at *
  generalize s.state = st at *
  cases hit : inputType c <;> rw [hit] at hi hb <;> cases st <;> cases any <;>
    simp only [trans, St.ends, reduceCtorEq, if_true, if_false, and_true, and_false, false_and, true_and, Bool.false_eq_true,
      not_true_eq_false, ne_eq, not_false_eq_true] at hs hb ⊢
  all_goals try exact True.intro
  all_goals try exact .inr ⟨u, c, rfl, hi⟩
  all_goals try exact absurd hs id
  all_goals try (subst hi; exact ⟨u, _, rfl, by simp [Angle], hm⟩)
  all_goals try exact ⟨u, c, rfl, hi, hs.before (by decide) (by decide) (by decide)⟩
  all_goals try (subst hi; exact ⟨u, rfl⟩)
  all_goals try (subst hi; obtain ⟨p, d, hu, hd, hp⟩ := hs; exact ⟨p, d, by simp [hu], hd, hp⟩)
  all_goals try (obtain ⟨q, hu⟩ := hs; exact ⟨q, c, by simp [hu], hi⟩)

theorem snoc_inj {p q : List Nat} {a b : Nat} (h : p ++ [a] = q ++ [b]) : p = q ∧ a = b := by
  obtain ⟨h1, h2⟩ := List.append_inj' h rfl
  exact ⟨h1, by simpa using h2⟩

theorem snoc2_inj {p q : List Nat} {a b c : Nat} (h : p ++ [a] = q ++ [b, c]) : p = q ++ [b] ∧ a = c :=
  snoc_inj (by simpa using h)

theorem snoc3_inj {p q : List Nat} {a b c d : Nat} (h : p ++ [a] = q ++ [b, c, d]) : p = q ++ [b, c] ∧ a = d :=
  snoc_inj (by simpa using h)

theorem blank_type {c : Nat} (h : Blank c) : inputType c = .spc := by rcases h with rfl | rfl <;> rfl
theorem digit_type {c : Nat} (h : Digit c) : inputType c = .dig := by
  unfold Digit at h
  simp [inputType, h]; omega

/-- The state after a character depends only on its type. -/
theorem newState_eq (s : CmdLoop) (c : Nat) (hb : trans s.state (inputType c) ≠ .break_) :
    s.newState c = if (trans s.state (inputType c)).ends then trans .spc (inputType c) else trans s.state (inputType c) := by
  simp [CmdLoop.newState, CmdLoop.rawState, hb]

theorem forced_step {st : St} {s : CmdLoop} {u : List Nat} (h : Forced s.state u) (hm : Spec.mode u = .plain) {c : Nat}
    (hst : st = s.newState c) (ho : StateOk s.state u) : Forced st (u ++ [c]) := by
  subst hst
  constructor
  · rintro (h0 | ⟨q, b, he, hb, hq⟩)
    · simp at h0
    · obtain ⟨rfl, rfl⟩ := snoc_inj he
      have : ∀ x : St, StateOk x u → trans x .spc ≠ .break_ ∧ (if (trans x .spc).ends then trans .spc .spc else trans x .spc) = .spc := by
        intro x hx; cases x <;> simp [StateOk] at hx <;> decide
      rw [newState_eq] <;> rw [blank_type hb]
      · exact (this _ ho).2
      · exact (this _ ho).1
  · intro p d he hd hp
    obtain ⟨rfl, rfl⟩ := snoc_inj he
    have hs := h.start hp
    rw [newState_eq] <;> rw [digit_type hd, hs] <;> decide
  · intro p d he hd hp
    obtain ⟨rfl, rfl⟩ := snoc2_inj he
    have hs := h.digit p d rfl hd hp
    rw [newState_eq] <;> rw [hs] <;> decide
  · intro p d he hd hp
    obtain ⟨rfl, rfl⟩ := snoc2_inj he
    have hs := h.digit p d rfl hd hp
    rw [newState_eq] <;> rw [hs] <;> decide
  · intro p d he hd hp
    obtain ⟨rfl, rfl⟩ := snoc3_inj he
    have hs := h.lt p d rfl hd hp
    rw [newState_eq] <;> rw [hs] <;> decide
  · intro p d he hd hp
    obtain ⟨rfl, rfl⟩ := snoc3_inj he
    have hs := h.gt p d rfl hd hp
    rw [newState_eq] <;> rw [hs] <;> decide

/-- In quotes nothing is forced. -/
theorem forced_quoted {u : List Nat} (h : Forced .txt u) (hm : Spec.mode u ≠ .plain) (c : Nat) : Forced .txt (u ++ [c]) := by
  constructor
  · rintro (h0 | ⟨q, b, he, hb, hq⟩)
    · simp at h0
    · obtain ⟨rfl, rfl⟩ := snoc_inj he
      exact absurd hq hm
  · intro p d he hd hp
    obtain ⟨rfl, rfl⟩ := snoc_inj he
    exact absurd (h.start hp) (by decide)
  · intro p d he hd hp
    obtain ⟨rfl, rfl⟩ := snoc2_inj he
    exact absurd (h.digit p d rfl hd hp) (by decide)
  · intro p d he hd hp
    obtain ⟨rfl, rfl⟩ := snoc2_inj he
    exact absurd (h.digit p d rfl hd hp) (by decide)
  · intro p d he hd hp
    obtain ⟨rfl, rfl⟩ := snoc3_inj he
    exact absurd (h.lt p d rfl hd hp) (by decide)
  · intro p d he hd hp
    obtain ⟨rfl, rfl⟩ := snoc3_inj he
    exact absurd (h.gt p d rfl hd hp) (by decide)

/-! The name of the command. -/

theorem unescape_filter (w : List Nat) (h : 94 ∉ unescape w) : unescape w = w.filter (· ≠ 94) := by
  fun_induction unescape w with
  | case1 => rfl
  | case2 => simp
  | case3 c hc => simp [hc]
  | case4 d r ih =>
    simp only [List.mem_cons, not_or] at h
    have : d ≠ 94 := fun e => h.1 e.symm
    simp [ih h.2, this]
  | case5 c d r hc ih =>
    simp only [List.mem_cons, not_or] at h
    rw [ih h.2]
    simp [hc]

theorem lower_94 {w : List Nat} (h : 94 ∈ w) : 94 ∈ w.map lower := List.mem_map.2 ⟨94, h, rfl⟩

/-- The word is recognised as `rem`. -/
theorem rem_filter {w : List Nat} (h : isCmdCommand w = some true) : (w.filter (· ≠ 94)).map lowerCase = [114, 101, 109] := by
  unfold isCmdCommand at h
  have hr : str "rem" = [114, 101, 109] := by decide
  rw [hr] at h
  have key : ∀ v : List Nat, v.map lower = [114, 101, 109] → 94 ∉ v := by
    intro v hv h94
    have := lower_94 h94
    rw [hv] at this
    simp at this
  split at h
  · simp only [Option.some.injEq, beq_iff_eq] at h
    have : w.filter (· ≠ 94) = w := by
      rw [List.filter_eq_self]
      intro x hx
      have := key w h
      simp only [decide_eq_true_eq]
      rintro rfl
      exact this hx
    rw [this]; exact h
  · split at h
    · simp at h
    · split at h
      · simp only [Option.some.injEq, beq_iff_eq] at h
        rw [← unescape_filter w (key _ h)]
        exact h
      · simp at h

/-- What one test does. -/
theorem test_cases (cs : CmdState) (c : Nat) (hc : c ≠ 0) (st : St) :
    ((cs.test c st).1 = true ∧ cs.failed = false ∧ cs.isMatch = true ∧ isCommandDelimiter c = true) ∨
    ((cs.test c st).1 = false ∧ (cs.test c st).2.failed = true) ∨
    ((cs.test c st).1 = false ∧ (cs.test c st).2 = cs ∧ cs.word = [] ∧ (st.low = false ∨ c ∈ [32, 9, 40, 64])) ∨
    ((cs.test c st).1 = false ∧ cs.failed = false ∧ (cs.test c st).2.word = cs.word ++ [c] ∧ (cs.test c st).2.onlyRem = cs.onlyRem ∧
      ((cs.test c st).2.isMatch = true → ∃ r, isCmdCommand (cs.word ++ [c]) = some r ∧ (cs.onlyRem = true → r = true))) := by
  unfold CmdState.test
  split
  · rename_i h; exact .inr (.inl ⟨rfl, h⟩)
  · rename_i hf
    split
    · rename_i h; exact .inr (.inr (.inl ⟨rfl, rfl, h.1, by simpa using h.2⟩))
    · split
      · exact .inr (.inl ⟨rfl, rfl⟩)
      · split
        · rename_i h; exact .inl ⟨rfl, by simpa using hf, h.1, h.2⟩
        · simp only [hc, if_false]
          split
          · refine .inr (.inr (.inr ⟨rfl, by simpa using hf, rfl, rfl, by simp⟩))
          · rename_i r hr
            split
            · exact .inr (.inl ⟨rfl, rfl⟩)
            · rename_i ho
              refine .inr (.inr (.inr ⟨rfl, by simpa using hf, rfl, rfl, fun _ => ⟨r, hr, ?_⟩⟩))
              intro h1
              cases r
              · exact absurd ⟨h1, rfl⟩ ho
              · rfl

theorem test_onlyRem (cs : CmdState) (c : Nat) (st : St) : (cs.test c st).2.onlyRem = cs.onlyRem := by
  unfold CmdState.test
  dsimp only
  generalize (if c = 0 then cs.word else cs.word ++ [c]) = w
  cases isCmdCommand w <;> dsimp only <;> repeat' (first | rfl | split)

/-- A state from which a command name could go on to a low state other than by a blank or a digit. -/
theorem low_trans {st : St} {i : Inp} (h : st.low = false) (hb : st ≠ .break_) : (trans st i).low = false ∧ trans st i ≠ .break_ := by
  cases st <;> cases i <;> simp [St.low] at h ⊢ <;> simp_all [trans]

theorem StateOk.ne_break {st : St} {u : List Nat} (h : StateOk st u) : st ≠ .break_ := by
  rintro rfl; exact h

/-- The character is tested for `rem` after an argument of a redirection only if it is a blank or a digit. -/
theorem arg_tested {s : CmdLoop} {u : List Nat} {c : Nat} (hc : c ≠ 0) (ho : StateOk s.state u)
    (h : s.isArg = true ∨ s.state.low = false) (ht : (s.newState c).low = true) (ha : s.newArg c = false) : Blank c ∨ Digit c := by
  have hi := inputType_iff hc
  unfold CmdLoop.newArg at ha
  unfold CmdLoop.newState at ht
  split at ha
  · simp at ha
  · rename_i he
    rw [if_neg he] at ht
    rcases h with h | h
    · split at ha
      · rename_i hn
        unfold CmdLoop.rawState at ht hn
        split at ht
        · rename_i hbr; rw [if_pos hbr] at hn; simp at hn
        · rename_i hbr
          rw [if_neg hbr] at hn
          have key : ∀ (st : St) (i : Inp), StateOk st u → (trans st i).low = true → trans st i ≠ .txt → i = .spc ∨ i = .dig := by
            intro st i hs
            cases st <;> cases i <;> simp [trans, St.low, StateOk] at hs ⊢
          rcases key _ _ ho ht hn with hk | hk <;> rw [hk] at hi
          · exact .inl hi
          · exact .inr hi
      · simp [h] at ha
    · unfold CmdLoop.rawState at ht
      obtain ⟨h1, h2⟩ := low_trans (i := inputType c) h ho.ne_break
      rw [if_neg (fun hh => h2 hh.1)] at ht
      rw [h1] at ht; simp at ht

theorem StateOk.afterRedir {st : St} {u : List Nat} (h : StateOk st u) (hs : st ≠ .txt) (hd : st ≠ .dig) (hr : st ≠ .spc) : AfterRedir u := by
  unfold AfterRedir
  cases st <;> simp only [StateOk, ne_eq, not_true_eq_false] at h hs hd hr
  all_goals first
    | (obtain ⟨q, d, h, ha, -⟩ := h; exact .inl ⟨q, d, h, .inl ha⟩)
    | (obtain ⟨q, d, h, ha⟩ := h; exact .inr ⟨q, d, h, ha⟩)
    | (obtain ⟨q, h⟩ := h; exact .inl ⟨q, 38, h, .inr rfl⟩)
    | skip
  all_goals obtain ⟨q, d, h, ha, -⟩ := h
  · exact .inl ⟨q ++ [d], 60, by simp [h], .inl (.inl rfl)⟩
  · exact .inl ⟨q ++ [d], 62, by simp [h], .inl (.inr rfl)⟩
  · exact .inl ⟨q ++ [d, 60], 60, by simp [h], .inl (.inl rfl)⟩
  · exact .inl ⟨q ++ [d, 62], 62, by simp [h], .inl (.inr rfl)⟩

theorem Hopeless.not_rem {w : List Nat} (h : Hopeless w) : ¬ IsRem (w.filter (· ≠ 94)) := by
  obtain ⟨x, hx, h94, hn⟩ := h
  intro hr
  apply hn
  rw [← show (w.filter (· ≠ 94)).map lowerCase = [114, 101, 109] from hr]
  exact List.mem_map.2 ⟨x, List.mem_filter.2 ⟨hx, by simpa using h94⟩, rfl⟩

theorem digit_not_rem {c : Nat} (h : Digit c) : c ≠ 94 ∧ lowerCase c ∉ [114, 101, 109] := by
  unfold Digit at h
  have : lowerCase c = c := by unfold lowerCase; rw [if_neg (by omega)]
  rw [this]
  simp only [List.mem_cons, List.not_mem_nil, or_false]
  omega

theorem mode_split {p w : List Nat} (h : mode p = .plain) : mode (p ++ w) = mode w := by rw [mode_append, h]; rfl

/-- The last character of a text. -/
theorem snoc_split {u x y : List Nat} {c s : Nat} (he : u ++ [c] = x ++ s :: y) : (y = [] ∧ u = x ∧ c = s) ∨ ∃ y', y = y' ++ [c] ∧ u = x ++ s :: y' := by
  rcases List.eq_nil_or_concat y with rfl | ⟨y', d, rfl⟩
  · obtain ⟨rfl, rfl⟩ := snoc_inj he
    exact .inl ⟨rfl, rfl, rfl⟩
  · have : x ++ s :: (y' ++ [d]) = (x ++ s :: y') ++ [d] := by simp
    rw [List.concat_eq_append, this] at he
    obtain ⟨h1, rfl⟩ := snoc_inj he
    exact .inr ⟨y', by simp, h1⟩

theorem Spec.Lead.snoc {u : List Nat} {c : Nat} (h : Lead u) (hc : mode u = .plain → c ∈ [32, 9, 40, 64] ∨ Angle c ∨ InTarget u) : Lead (u ++ [c]) := by
  intro x s y he hm
  rcases snoc_split he with ⟨rfl, rfl, rfl⟩ | ⟨y', rfl, rfl⟩
  · exact hc hm
  · exact h x s y' rfl hm

theorem Spec.InTarget.snoc {u : List Nat} {c : Nat} (h : InTarget u) (hc : mode u = .plain → Blank c → AfterRedir u) : InTarget (u ++ [c]) := by
  obtain ⟨a, g, b, rfl, hg, hm, hb⟩ := h
  refine ⟨a, g, b ++ [c], by simp, hg, hm, ?_⟩
  intro y z w he hy hz
  rcases snoc_split he with ⟨rfl, rfl, rfl⟩ | ⟨w', rfl, rfl⟩
  · exact hc hy hz
  · exact hb y z w' rfl hy hz

theorem Spec.InTarget.angle {u : List Nat} {c : Nat} (hm : mode u = .plain) (hc : Angle c) : InTarget (u ++ [c]) :=
  ⟨u, c, [], rfl, hc, hm, by intro y z w h; simp at h⟩

/-- A character that is not tested is a redirection symbol, or after one. -/
theorem untested {s : CmdLoop} {c : Nat} (hc : c ≠ 0) (hb : s.newState c ≠ .break_) (ha : s.isArg = false) (hl : s.state.low = true)
    (h : ¬ ((s.newState c).low = true ∧ s.newArg c = false)) : Angle c := by
  have hi := inputType_iff hc
  unfold CmdLoop.newState CmdLoop.newArg CmdLoop.rawState at *
  rw [ha] at h
  generalize s.newAny c = any at *
  generalize s.state = st at *
  cases hit : inputType c <;> rw [hit] at hi h hb <;> cases st <;> simp [St.low] at hl <;> cases any <;> simp [trans, St.ends, St.low] at h hb
  all_goals (subst hi; simp [Angle])

/-- A blank is not tested only directly after a redirection symbol or handle. -/
theorem untested_blank {s : CmdLoop} {c : Nat} (hl : s.state.low = true) (h : ¬ ((s.newState c).low = true ∧ s.newArg c = false)) :
    ¬ Blank c := by
  intro hb
  apply h
  unfold CmdLoop.newState CmdLoop.newArg CmdLoop.rawState
  rw [blank_type hb]
  generalize s.newAny c = any
  generalize s.state = st at *
  cases st <;> simp [St.low] at hl <;> simp [trans, St.ends, St.low]

/-- A letter of `rem`, or a caret, that is tested. -/
theorem letter_any {s : CmdLoop} {u : List Nat} {c : Nat} (ho : StateOk s.state u) (hc : c = 94 ∨ lowerCase c ∈ [114, 101, 109])
    (h : s.newArg c = false) : s.newAny c = true := by
  have hci : c = 94 ∨ c ∈ [114, 101, 109, 82, 69, 77] := by
    rcases hc with h | h
    · exact .inl h
    · right
      unfold lowerCase at h
      split at h <;> simp only [List.mem_cons, List.not_mem_nil, or_false] at h ⊢ <;> omega
  have hit : inputType c = .txt ∧ isDelim nameDelims c = false ∧ c ≠ 38 ∧ c ≠ 124 := by
    simp only [List.mem_cons, List.not_mem_nil, or_false] at hci
    rcases hci with rfl | rfl | rfl | rfl | rfl | rfl | rfl <;> decide
  unfold CmdLoop.newArg CmdLoop.rawState at h
  unfold CmdLoop.newAny CmdLoop.textChar
  simp only [hit, ne_eq, not_false_eq_true, and_true] at h ⊢
  generalize s.state = st at *
  cases s.anyText
  · cases st <;> simp [StateOk] at ho <;> simp [trans, St.ends] at h ⊢
  · rfl

theorem cmd_step {s s' : CmdLoop} {u : List Nat} {c : Nat} (hc : c ≠ 0) (hm : Spec.mode u = .plain) (ho : StateOk s.state u)
    (h : CmdOk s u) (ht : (s.newCmd c).1 = false) (hb : s.newState c ≠ .break_) (h1 : s'.isArg = s.newArg c) (h2 : s'.state = s.newState c)
    (h3 : s'.cmd = (s.newCmd c).2) (h4 : s'.anyText = s.newAny c) :
    CmdOk s' (u ++ [c]) ∧ (Digit c → s'.isArg = true ∨ s'.state.low = false ∨ Hopeless s'.cmd.word ∨ s'.cmd.failed = true) := by
  obtain ⟨hrem, hf⟩ := h
  unfold CmdOk
  rw [h1, h2, h3, h4]
  unfold CmdLoop.newCmd at ht ⊢
  split at ht
  · rename_i htest
    rw [if_pos htest]
    rw [test_onlyRem, hrem]
    have hno : ¬ (s.newArg c = true ∨ (s.newState c).low = false) := by
      rw [htest.1, htest.2]; simp
    rcases test_cases s.cmd c hc (s.newState c) with ⟨h, -⟩ | ⟨-, h⟩ | ⟨-, h, hw, hcs⟩ | ⟨-, hfail, hw, hor, hmatch⟩
    · rw [h] at ht; simp at ht
    · rw [h]; simp
    · rw [h, hw]
      rw [htest.1] at hcs
      have hcs : c ∈ [32, 9, 40, 64] := by simpa using hcs
      refine ⟨⟨rfl, fun hfl => ⟨fun hh => ?_, .inl ⟨rfl, ?_, fun hh => absurd hh hno⟩⟩⟩, fun hd => ?_⟩
      · have := ((hf hfl).1 hh).1
        rw [hw] at this
        simp [IsRem] at this
      · rcases (hf hfl).2 with ⟨-, h, -⟩ | ⟨x, hx, -⟩ | ⟨hh, -⟩ | ⟨hh, -⟩
        · exact h.snoc fun _ => .inl hcs
        · rw [hw] at hx; simp at hx
        · exact absurd hw hh
        · exact absurd hw hh
      · exfalso
        unfold Digit at hd
        simp only [List.mem_cons, List.not_mem_nil, or_false] at hcs
        omega
    · have hword : Hopeless (s.cmd.word ++ [c]) ∨
          ∃ p w, u ++ [c] = p ++ w ∧ Lead p ∧ mode p = .plain ∧ (s.cmd.word ++ [c]).filter (· ≠ 94) = visible w := by
        have hvc : [c].filter (· ≠ 94) = if c ≠ 94 then [c] else [] := by by_cases h94 : c = 94 <;> simp [h94]
        rcases (hf hfail).2 with ⟨hw0, hl, -⟩ | ⟨x, hx, h⟩ | ⟨-, p, w, rfl, hp, hmp, hv⟩ | ⟨hne, h⟩
        · right
          refine ⟨u, [c], rfl, hl, hm, ?_⟩
          rw [hw0, List.nil_append, hvc]
          simp [visible, visibleFrom]
        · exact .inl ⟨x, by simp [hx], h⟩
        · right
          refine ⟨p, w ++ [c], by simp, hp, hmp, ?_⟩
          rw [mode_split hmp] at hm
          rw [visible_snoc, List.filter_append, hv, hvc]
          simp [hm]
        · left
          refine ⟨c, by simp, ?_⟩
          rcases arg_tested hc ho h htest.1 htest.2 with (h | h) | h
          · subst h; decide
          · subst h; decide
          · exact digit_not_rem h
      refine ⟨⟨rfl, fun _ => ⟨?_, ?_⟩⟩, fun hd => .inr (.inr (.inl ?_))⟩
      · intro hh
        obtain ⟨r, hr, hr2⟩ := hmatch hh
        rw [hr2 hrem] at hr
        have hir : IsRem ((s.cmd.word ++ [c]).filter (· ≠ 94)) := rem_filter hr
        rw [hw]
        refine ⟨hir, .inr ⟨htest.2, htest.1, ?_, ?_⟩⟩
        · apply letter_any ho _ htest.2
          by_cases h94 : c = 94
          · exact .inl h94
          · by_cases hl : lowerCase c ∈ [114, 101, 109]
            · exact .inr hl
            · exact absurd hir (Hopeless.not_rem ⟨c, by simp, h94, hl⟩)
        · rcases hword with h | ⟨p, w, he, hp, hmp, hv⟩
          · exact absurd hir h.not_rem
          · exact ⟨p, w, he, hp, hmp, by rw [← hv]; exact hir⟩
      · rw [hw]
        rcases hword with h | h
        · exact .inr (.inl h)
        · exact .inr (.inr (.inl ⟨by simp, h⟩))
      · rw [hw]
        exact ⟨c, by simp, digit_not_rem hd⟩
  · rename_i htest
    rw [if_neg htest]
    have hthird : s.newArg c = true ∨ (s.newState c).low = false := by
      cases ha : s.newArg c
      · cases hl : (s.newState c).low
        · exact .inr rfl
        · exact absurd ⟨hl, ha⟩ htest
      · exact .inl rfl
    have hang : s.isArg = false → s.state.low = true → Angle c := fun ha hl => untested hc hb ha hl htest
    refine ⟨⟨hrem, fun hfl => ⟨fun hh => ⟨((hf hfl).1 hh).1, .inl ?_⟩, ?_⟩⟩, fun _ => ?_⟩
    · rcases ((hf hfl).1 hh).2 with h | ⟨ha, hl, -, p, w, rfl, hp, hmp, hr⟩
      · exact h.mono _
      · rw [mode_split hmp] at hm
        exact ⟨p, w, c, [], by simp, hp, hmp, hr, hm, .inr (hang ha hl)⟩
    · by_cases hw : s.cmd.word = []
      · left
        have hlt : Lead u ∧ (s.isArg = true ∨ s.state.low = false → InTarget u) := by
          rcases (hf hfl).2 with ⟨-, h, h'⟩ | ⟨x, hx, -⟩ | ⟨hh, -⟩ | ⟨hh, -⟩
          · exact ⟨h, h'⟩
          · rw [hw] at hx; simp at hx
          · exact absurd hw hh
          · exact absurd hw hh
        have key : Angle c ∨ InTarget u ∧ (Blank c → AfterRedir u) := by
          by_cases hx : s.isArg = true ∨ s.state.low = false
          · right
            refine ⟨hlt.2 hx, fun hbl => ?_⟩
            cases hl : s.state.low
            · apply ho.afterRedir <;> rintro hh <;> rw [hh] at hl <;> simp [St.low] at hl
            · exact absurd hbl (untested_blank hl htest)
          · simp only [not_or, Bool.not_eq_true, Bool.not_eq_false] at hx
            exact .inl (hang hx.1 hx.2)
        refine ⟨hw, hlt.1.snoc fun _ => ?_, fun _ => ?_⟩
        · rcases key with h | h
          · exact .inr (.inl h)
          · exact .inr (.inr h.1)
        · rcases key with h | h
          · exact .angle hm h
          · exact h.1.snoc fun _ => h.2
      · exact .inr (.inr (.inr ⟨hw, hthird⟩))
    · rcases hthird with h | h
      · exact .inl h
      · exact .inr (.inl h)

/-- A redirection symbol that is not tested. -/
theorem cmd_angle {s : CmdLoop} {u : List Nat} (hm : Spec.mode u = .plain) (h : CmdOk s u)
    (hx : s.isArg = true ∨ s.state.low = false ∨ Hopeless s.cmd.word ∨ s.cmd.failed = true) : CmdOk s (u ++ [62]) := by
  obtain ⟨hrem, hf⟩ := h
  refine ⟨hrem, fun hfl => ?_⟩
  have hx : Hopeless s.cmd.word ∨ (s.isArg = true ∨ s.state.low = false) := by
    rcases hx with h | h | h | h
    · exact .inr (.inl h)
    · exact .inr (.inr h)
    · exact .inl h
    · rw [hfl] at h; simp at h
  refine ⟨fun hh => ⟨((hf hfl).1 hh).1, .inl ?_⟩, ?_⟩
  · rcases hx with hx | hx
    · exact absurd ((hf hfl).1 hh).1 hx.not_rem
    · rcases ((hf hfl).1 hh).2 with h | ⟨ha, hl, -⟩
      · exact h.mono _
      · rw [ha, hl] at hx; simp at hx
  · rcases hx with hx | hx
    · exact .inr (.inl hx)
    · by_cases hw : s.cmd.word = []
      · rcases (hf hfl).2 with ⟨-, h, -⟩ | ⟨x, hx, -⟩ | ⟨hh, -⟩ | ⟨hh, -⟩
        · exact .inl ⟨hw, h.snoc fun _ => .inr (.inl (.inr rfl)), fun _ => .angle hm (.inr rfl)⟩
        · rw [hw] at hx; simp at hx
        · exact absurd hw hh
        · exact absurd hw hh
      · exact .inr (.inr (.inr ⟨hw, hx⟩))

/-- A character that is skipped. -/
theorem cmd_skip {s : CmdLoop} {u : List Nat} {c : Nat} (hm : Spec.mode u ≠ .plain) (h : CmdOk s u) (b : Bool) :
    CmdOk { s with inQuote := b } (u ++ [c]) := by
  obtain ⟨hrem, hf⟩ := h
  have hvis : ∀ p w, u = p ++ w → mode p = .plain → visible (w ++ [c]) = visible w := by
    rintro p w rfl hp
    rw [mode_split hp] at hm
    rw [visible_snoc]; simp [hm]
  refine ⟨hrem, fun hfl => ⟨fun hh => ⟨((hf hfl).1 hh).1, ?_⟩, ?_⟩⟩
  · rcases ((hf hfl).1 hh).2 with h | ⟨ha, hl, ht, p, w, he, hp, hmp, hr⟩
    · exact .inl (h.mono _)
    · exact .inr ⟨ha, hl, ht, p, w ++ [c], by simp [he], hp, hmp, by rw [hvis p w he hmp]; exact hr⟩
  · rcases (hf hfl).2 with ⟨hw, h, h'⟩ | h | ⟨hw, p, w, he, hp, hmp, hv⟩ | h
    · exact .inl ⟨hw, h.snoc fun hh => absurd hh hm, fun hh => (h' hh).snoc fun hh => absurd hh hm⟩
    · exact .inr (.inl h)
    · exact .inr (.inr (.inl ⟨hw, p, w ++ [c], by simp [he], hp, hmp, by rw [hvis p w he hmp]; exact hv⟩))
    · exact .inr (.inr (.inr h))

/-- When the test succeeds the command is a remark. -/
theorem cmd_true {s : CmdLoop} {u : List Nat} {c : Nat} (hc : c ≠ 0) (hm : Spec.mode u = .plain) (ho : StateOk s.state u) (h : CmdOk s u)
    (ht : (s.newCmd c).1 = true) : Remark (u ++ [c]) ∧ (IsSep c → Remark u) := by
  unfold CmdLoop.newCmd at ht
  split at ht
  · rename_i htest
    rcases test_cases s.cmd c hc (s.newState c) with ⟨-, h1, h2, h3⟩ | ⟨h, -⟩ | ⟨h, -⟩ | ⟨h, -⟩
    · rcases ((h.2 h1).1 h2).2 with h | ⟨ha, hl, hany, p, w, rfl, hp, hmp, hr⟩
      · exact ⟨h.mono _, fun _ => h⟩
      · have hns : ¬ IsSep c := by
          intro hs
          have hb : s.newState c = .break_ := by
            have hn : s.newAny c = true := by simp [CmdLoop.newAny, hany]
            unfold CmdLoop.newState CmdLoop.rawState
            rw [hn]
            generalize s.state = st at *
            rcases hs with rfl | rfl <;> cases st <;> simp [St.low] at hl <;> decide
          rw [hb] at htest
          simp [St.low] at htest
        refine ⟨?_, fun hs => absurd hs hns⟩
        rw [mode_split hmp] at hm
        refine ⟨p, w, c, [], by simp, hp, hmp, hr, hm, ?_⟩
        unfold isCommandDelimiter at h3
        rw [show str "&(=+[]\\|;:,.<>/ \t" = [38, 40, 61, 43, 91, 93, 92, 124, 59, 58, 44, 46, 60, 62, 47, 32, 9] by decide] at h3
        simp only [hc, false_or, decide_eq_true_eq, List.mem_cons, List.not_mem_nil, or_false] at h3
        unfold IsSep at hns
        simp only [nameEnds, Angle, List.mem_cons, List.not_mem_nil, or_false]
        omega
    all_goals rw [h] at ht; simp at ht
  · simp at ht

/-- The variables after a character that does not end the command. -/
def CmdLoop.step (s : CmdLoop) (c : Nat) : CmdLoop :=
  { inQuote := c == 34, isArg := s.newArg c, anyText := s.newAny c, state := s.newState c, cmd := (s.newCmd c).2 }

/-! What the text read says about `cmd_state`. -/

theorem lowerCase_eq (c : Nat) : lowerCase c = lower c := rfl

theorem letter_cases {c : Nat} (h : lowerCase c ∈ [114, 101, 109]) : c ∈ [114, 101, 109, 82, 69, 77] := by
  unfold lowerCase at h
  split at h <;> simp only [List.mem_cons, List.not_mem_nil, or_false] at h ⊢ <;> omega

/-- Text of blanks, parentheses, `@` and letters of `rem` is plain. -/
theorem plain_mode {u : List Nat} (h : ∀ c ∈ u, c ≠ 34 ∧ c ≠ 94) : mode u = .plain := by
  induction u with
  | nil => rfl
  | cons c r ih =>
    have h1 := h c (by simp)
    show (Mode.plain.step c |> fun m => r.foldl Mode.step m) = _
    simp only [Mode.step, h1.1, h1.2, if_false]
    exact ih fun x hx => h x (by simp [hx])

theorem plain_chars {p w : List Nat} (hp : ∀ c ∈ p, c ∈ [32, 9, 40, 64]) (hw : w.map lowerCase <+: [114, 101, 109]) :
    ∀ c ∈ p ++ w, c ≠ 34 ∧ c ≠ 94 := by
  intro c hc
  rcases List.mem_append.1 hc with h | h
  · have := hp c h
    simp only [List.mem_cons, List.not_mem_nil, or_false] at this
    omega
  · have := letter_cases (hw.subset (List.mem_map.2 ⟨c, h, rfl⟩))
    simp only [List.mem_cons, List.not_mem_nil, or_false] at this
    omega

/-- A text character in a text state. -/
theorem txt_step {s : CmdLoop} {c : Nat} (hc : inputType c = .txt) (ha : s.isArg = false) (hs : s.state = .txt ∨ s.state = .spc) :
    s.newState c = .txt ∧ s.newArg c = false ∧ s.newCmd c = s.cmd.test c .txt := by
  have h1 : s.newState c = .txt ∧ s.newArg c = false := by
    unfold CmdLoop.newState CmdLoop.newArg CmdLoop.rawState
    rw [hc, ha]
    rcases hs with h | h <;> rw [h] <;> simp [trans, St.ends]
  refine ⟨h1.1, h1.2, ?_⟩
  unfold CmdLoop.newCmd
  rw [h1.1, h1.2]
  simp [St.low]

theorem spc_step {s : CmdLoop} {c : Nat} (hc : Blank c) (hs : s.state = .txt ∨ s.state = .spc) :
    s.newState c = .spc ∧ s.newArg c = false ∧ s.newCmd c = s.cmd.test c .spc := by
  have h1 : s.newState c = .spc ∧ s.newArg c = false := by
    unfold CmdLoop.newState CmdLoop.newArg CmdLoop.rawState
    rw [blank_type hc]
    rcases hs with h | h <;> rw [h] <;> simp [trans, St.ends]
  refine ⟨h1.1, h1.2, ?_⟩
  unfold CmdLoop.newCmd
  rw [h1.1, h1.2]
  simp [St.low]

theorem prefix_rem {w : List Nat} (h : w.map lowerCase <+: [114, 101, 109]) :
    w.length ≤ 3 ∧ (isCmdCommand w = none ∨ isCmdCommand w = some true) ∧ (IsRem w → isCmdCommand w = some true) := by
  have hl := h.length_le
  simp only [List.length_map, List.length_cons, List.length_nil] at hl
  have h94 : 94 ∉ w := by
    intro hh
    have := h.subset (List.mem_map.2 ⟨94, hh, rfl⟩)
    revert this; decide
  have hmap : w.map lowerCase = w.map lower := rfl
  refine ⟨by omega, ?_, ?_⟩
  · rw [hmap] at h
    unfold isCmdCommand
    rw [if_pos h94]
    rw [List.prefix_iff_eq_take, List.length_map] at h
    have : w.length = 0 ∨ w.length = 1 ∨ w.length = 2 ∨ w.length = 3 := by omega
    rcases this with hw | hw | hw | hw <;> rw [hw] at h <;> rw [h] <;> decide
  · intro hr
    rw [IsRem, hmap] at hr
    unfold isCmdCommand
    rw [hr, if_pos (by decide)]; decide

theorem forced_cmd {s : CmdLoop} {u : List Nat} {c : Nat} (h : CmdForced s u) (ht : (s.newCmd c).1 = false) :
    CmdForced (s.step c) (u ++ [c]) := by
  obtain ⟨hF, hN⟩ := h
  constructor
  · intro p w he hp hw
    rcases List.eq_nil_or_concat w with rfl | ⟨w, d, rfl⟩
    · rw [List.append_nil] at he
      subst he
      obtain ⟨h1, h2, h3, h4, -⟩ := hF u [] (by simp) (fun x hx => hp x (by simp [hx])) (by simp)
      have hc := hp c (by simp)
      show (s.newCmd c).2.failed = false ∧ (s.newCmd c).2.word = [] ∧ s.newArg c = false ∧ (s.newState c = .txt ∨ s.newState c = .spc) ∧ _
      have key : (s.newArg c = false ∧ (s.newState c = .txt ∨ s.newState c = .spc)) ∧ ∃ st, s.newCmd c = s.cmd.test c st := by
        simp only [List.mem_cons, List.not_mem_nil, or_false] at hc
        rcases hc with rfl | rfl | rfl | rfl
        · obtain ⟨a, b, e⟩ := spc_step (.inl rfl) h4; exact ⟨⟨b, .inr a⟩, _, e⟩
        · obtain ⟨a, b, e⟩ := spc_step (.inr rfl) h4; exact ⟨⟨b, .inr a⟩, _, e⟩
        · obtain ⟨a, b, e⟩ := txt_step (c := 40) (by decide) h3 h4; exact ⟨⟨b, .inl a⟩, _, e⟩
        · obtain ⟨a, b, e⟩ := txt_step (c := 64) (by decide) h3 h4; exact ⟨⟨b, .inl a⟩, _, e⟩
      obtain ⟨hst, st, hcmd⟩ := key
      have htest : s.cmd.test c st = (false, s.cmd) := by
        unfold CmdState.test
        rw [h1, if_neg (by simp), if_pos ⟨h2, .inr (by simpa using hc)⟩]
      rw [hcmd, htest]
      exact ⟨h1, h2, hst.1, hst.2, by simp [IsRem]⟩
    · rw [List.concat_eq_append] at he hw ⊢
      rw [← List.append_assoc] at he
      obtain ⟨rfl, rfl⟩ := snoc_inj he
      have hw0 : w.map lowerCase <+: [114, 101, 109] := by
        refine List.IsPrefix.trans ?_ hw
        simp
      obtain ⟨h1, h2, h3, h4, h5⟩ := hF p w rfl hp hw0
      have hlet : lowerCase c ∈ [114, 101, 109] := hw.subset (by simp)
      have hlc := letter_cases hlet
      have hcc : inputType c = .txt ∧ isCommandDelimiter c = false ∧ ¬ (c = 32 ∨ c = 9 ∨ c = 40 ∨ c = 64) ∧ ¬ c > 127 ∧ c ≠ 0 := by
        simp only [List.mem_cons, List.not_mem_nil, or_false] at hlc
        rcases hlc with rfl | rfl | rfl | rfl | rfl | rfl <;> decide
      obtain ⟨a, b, e⟩ := txt_step hcc.1 h3 h4
      show (s.newCmd c).2.failed = false ∧ (s.newCmd c).2.word = w ++ [c] ∧ s.newArg c = false ∧ (s.newState c = .txt ∨ s.newState c = .spc) ∧
        (IsRem (w ++ [c]) → (s.newCmd c).2.isMatch = true)
      obtain ⟨hlen, hcase, hrem⟩ := prefix_rem hw
      have hlen0 := (prefix_rem hw0).1
      have htest : (s.cmd.test c .txt).2 = { s.cmd with word := w ++ [c], isMatch := decide (isCmdCommand (w ++ [c]) = some true) } := by
        unfold CmdState.test
        rw [h1, if_neg (by simp), if_neg (by rintro ⟨-, h | h⟩; exact absurd h (by decide); exact hcc.2.2.1 h), h2,
          if_neg (by omega), if_neg (by rw [hcc.2.1]; simp)]
        simp only [hcc.2.2.2.2, if_false]
        rcases hcase with hh | hh <;> rw [hh] <;> simp [h1]
      rw [e, htest]
      exact ⟨h1, rfl, b, .inl a, fun hr => by simp [hrem hr]⟩
  · rintro ⟨p, w, d, r, he, hp, hw, hd⟩
    rw [← List.append_assoc] at he
    rcases snoc_split he with ⟨rfl, rfl, rfl⟩ | ⟨r', rfl, rfl⟩
    · have hpre : w.map lowerCase <+: [114, 101, 109] := by rw [show w.map lowerCase = _ from hw]; exact List.prefix_refl _
      obtain ⟨h1, h2, h3, h4, h5⟩ := hF p w rfl hp hpre
      have hmatch := h5 hw
      have hlen := (prefix_rem hpre).1
      have hne : w ≠ [] := by rintro rfl; simp [IsRem] at hw
      have hcc : (Blank c ∨ inputType c = .txt) ∧ isCommandDelimiter c = true ∧ ¬ c > 127 := by
        simp only [nameEnds, List.mem_cons, List.not_mem_nil, or_false] at hd
        rcases hd with rfl | rfl | rfl | rfl | rfl | rfl | rfl | rfl | rfl | rfl | rfl | rfl | rfl <;>
          refine ⟨?_, by decide, by decide⟩ <;> first | exact .inl (.inl rfl) | exact .inl (.inr rfl) | exact .inr (by decide)
      have key : ∃ st : St, st.low = true ∧ s.newCmd c = s.cmd.test c st := by
        rcases hcc.1 with h | h
        · exact ⟨_, rfl, (spc_step h h4).2.2⟩
        · exact ⟨_, rfl, (txt_step h h3 h4).2.2⟩
      obtain ⟨st, hlow, hcmd⟩ := key
      rw [hcmd] at ht
      unfold CmdState.test at ht
      rw [h1, if_neg (by simp), if_neg (by rw [h2]; exact fun hh => hne hh.1), h2, if_neg (by omega), if_pos ⟨hmatch, hcc.2.1⟩] at ht
      simp at ht
    · exact hN ⟨p, w, d, r', by simp, hp, hw, hd⟩

theorem forced_skip {s : CmdLoop} {u : List Nat} {c : Nat} (hm : Spec.mode u ≠ .plain) (h : CmdForced s u) (b : Bool) :
    CmdForced { s with inQuote := b } (u ++ [c]) := by
  constructor
  · intro p w he hp hw
    refine absurd (plain_mode fun x hx => ?_) hm
    refine plain_chars hp hw x ?_
    rw [← he]; simp [hx]
  · rintro ⟨p, w, d, r, he, hp, hw, hd⟩
    rw [← List.append_assoc] at he
    rcases snoc_split he with ⟨rfl, rfl, rfl⟩ | ⟨r', rfl, rfl⟩
    · exact hm (plain_mode (plain_chars hp (by rw [show w.map lowerCase = _ from hw]; exact List.prefix_refl _)))
    · exact h.2 ⟨p, w, d, r', by simp, hp, hw, hd⟩

theorem forced_angle {s : CmdLoop} {u : List Nat} (h : CmdForced s u) : CmdForced s (u ++ [62]) := by
  constructor
  · intro p w he hp hw
    rcases List.eq_nil_or_concat w with rfl | ⟨w, d, rfl⟩
    · rw [List.append_nil] at he
      exact absurd (hp 62 (by rw [← he]; simp)) (by decide)
    · rw [List.concat_eq_append, ← List.append_assoc] at he
      obtain ⟨-, rfl⟩ := snoc_inj he
      exact absurd (show lowerCase 62 ∈ [114, 101, 109] from hw.subset (by simp)) (by decide)
  · rintro ⟨p, w, d, r, he, hp, hw, hd⟩
    rw [← List.append_assoc] at he
    rcases snoc_split he with ⟨rfl, rfl, rfl⟩ | ⟨r', rfl, rfl⟩
    · revert hd; decide
    · exact h.2 ⟨p, w, d, r', by simp, hp, hw, hd⟩

theorem Spec.Idle.snoc {u : List Nat} {c : Nat} (h : Idle u)
    (hc : Spec.mode u = .plain → c ∈ [64, 32, 9, 61, 59, 44, 40, 38, 124, 60, 62] ∨ AfterRedir u) : Idle (u ++ [c]) := by
  intro x s y he hm
  rcases List.eq_nil_or_concat y with rfl | ⟨y', d, rfl⟩
  · obtain ⟨rfl, rfl⟩ := snoc_inj he
    exact hc hm
  · have : x ++ s :: (y' ++ [d]) = (x ++ s :: y') ++ [d] := by simp
    rw [List.concat_eq_append, this] at he
    obtain ⟨h1, h2⟩ := snoc_inj he
    exact h x s y' h1 hm

theorem nameDelims_eq : nameDelims = [64, 32, 9, 61, 59, 44, 40] := by decide

theorem any_step {s : CmdLoop} {u : List Nat} {c : Nat} (hc : c ≠ 0) (ho : StateOk s.state u) (h : Idle u) (ha : s.newAny c = false) :
    Idle (u ++ [c]) := by
  apply h.snoc
  intro _
  simp only [CmdLoop.newAny, Bool.or_eq_false_iff] at ha
  have hi := inputType_iff hc
  by_cases hs : s.state ≠ .txt ∧ s.state ≠ .dig ∧ s.state ≠ .spc
  · exact .inr (ho.afterRedir hs.1 hs.2.1 hs.2.2)
  · left
    have hst : s.state = .txt ∨ s.state = .dig ∨ s.state = .spc := by
      by_cases h1 : s.state = .txt
      · exact .inl h1
      · by_cases h2 : s.state = .dig
        · exact .inr (.inl h2)
        · by_cases h3 : s.state = .spc
          · exact .inr (.inr h3)
          · exact absurd ⟨h1, h2, h3⟩ hs
    have htc := ha.2
    simp only [CmdLoop.textChar, ha.1, decide_eq_false_iff_not, true_and] at htc
    by_cases hnd : isDelim nameDelims c = true
    · simp only [isDelim, hc, false_or, nameDelims_eq, decide_eq_true_eq] at hnd
      simp only [List.mem_cons, List.not_mem_nil, or_false] at hnd ⊢
      omega
    · by_cases h38 : c = 38 ∨ c = 124
      · rcases h38 with rfl | rfl <;> decide
      · have hnt : ¬ (trans s.state (inputType c) = .txt ∨ trans s.state (inputType c) = .dig) := by
          intro hh
          exact htc ⟨hh, by simpa using hnd, fun e => h38 (.inl e), fun e => h38 (.inr e)⟩
        have : inputType c = .spc ∨ inputType c = .lt ∨ inputType c = .gt ∨ inputType c = .amp ∨ inputType c = .pipe := by
          rcases hst with h | h | h <;> rw [h] at hnt <;> revert hnt <;> cases inputType c <;> decide
        rcases this with h | h | h | h | h <;> rw [h] at hi
        · rcases hi with rfl | rfl <;> decide
        all_goals subst hi; decide

theorem textChar_ne {s : CmdLoop} {u : List Nat} {c : Nat} (hc : c ≠ 0) (ho : StateOk s.state u) (h : s.textChar c = true) :
    c ∉ [64, 32, 9, 61, 59, 44, 40, 38, 124, 60, 62] := by
  simp only [CmdLoop.textChar, decide_eq_true_eq] at h
  obtain ⟨h1, -, h2, h3, h4⟩ := h
  simp only [isDelim, hc, false_or, nameDelims_eq, decide_eq_false_iff_not, List.mem_cons, List.not_mem_nil, or_false] at h2
  have h5 : c ≠ 60 ∧ c ≠ 62 := by
    constructor <;> rintro rfl <;> revert h1 <;> generalize s.state = st at * <;> cases st <;> simp [StateOk] at ho <;> decide
  simp only [List.mem_cons, List.not_mem_nil, or_false]
  omega

/-- Where the command ends it has started, or there is a redirection. -/
theorem break_started {al : Bool} {s : CmdLoop} {u : List Nat} {c : Nat} (h : Core al s u) (hs : IsSep c) (hb : s.newState c = .break_) :
    al = true ∨ Started u ∨ AfterRedir u := by
  by_cases hst : s.state.low = true
  · have hany : s.anyText = true := by
      cases ha : s.anyText
      · exfalso
        have hn : s.newAny c = false := by
          simp only [CmdLoop.newAny, CmdLoop.textChar, ha, Bool.false_or, decide_eq_false_iff_not]
          rcases hs with rfl | rfl <;> simp
        revert hb
        unfold CmdLoop.newState CmdLoop.rawState
        rw [hn]
        generalize s.state = st at *
        rcases hs with rfl | rfl <;> cases st <;> simp [St.low] at hst <;> decide
      · rfl
    rcases h.text hany with h | h
    · exact .inl h
    · exact .inr (.inl h)
  · right; right
    apply h.state.afterRedir <;> rintro hh <;> rw [hh] at hst <;> simp [St.low] at hst

/-! One step of the loop. -/

theorem sep_step {al : Bool} {s : CmdLoop} {u : List Nat} {c : Nat} (h : Core al s u) (hb : s.newState c ≠ .break_) (hs : IsSep c) :
    c = 38 ∧ Handle u ∨ al = false ∧ Idle u := by
  have key : ∀ (st : St), StateOk st u → trans st (inputType c) = .break_ ∨
      (if (trans st (inputType c)).ends then trans .spc (inputType c) else trans st (inputType c)) = .break_ ∨
      (c = 38 ∧ st ∈ [.din, .dout, .din2, .dout2]) := by
    intro st ho
    rcases hs with rfl | rfl <;> cases st <;> simp [StateOk] at ho <;> decide
  rcases key _ h.state with hk | hk | hk
  · cases ha : s.newAny c
    · have : s.anyText = false := by
        simp only [CmdLoop.newAny, Bool.or_eq_false_iff] at ha; exact ha.1
      exact .inr (h.any this)
    · exfalso
      apply hb
      have hr : s.rawState c = .break_ := by simp [CmdLoop.rawState, hk, ha]
      simp [CmdLoop.newState, hr, St.ends]
  · by_cases h2 : trans s.state (inputType c) = .break_
    · cases ha : s.newAny c
      · have : s.anyText = false := by
          simp only [CmdLoop.newAny, Bool.or_eq_false_iff] at ha; exact ha.1
        exact .inr (h.any this)
      · exfalso
        apply hb
        have hr : s.rawState c = .break_ := by simp [CmdLoop.rawState, h2, ha]
        simp [CmdLoop.newState, hr, St.ends]
    · exact absurd (by rw [newState_eq _ _ h2]; exact hk) hb
  · exact .inl ⟨hk.1, h.state.handle hk.2⟩

theorem newCmd_failed {s : CmdLoop} {c : Nat} (h : s.cmd.failed = true) : s.newCmd c = (false, s.cmd) := by
  unfold CmdLoop.newCmd CmdState.test
  simp [h]

theorem newState_txt {s : CmdLoop} {u : List Nat} {c : Nat} (ho : StateOk s.state u) (hc : inputType c = .txt) : s.newState c = .txt := by
  have key : ∀ st, StateOk st u → trans st .txt ≠ .break_ ∧ (if (trans st .txt).ends then trans .spc .txt else trans st .txt) = .txt := by
    intro st h; cases st <;> simp [StateOk] at h <;> decide
  rw [newState_eq] <;> rw [hc]
  · exact (key _ ho).2
  · exact (key _ ho).1

theorem core_step {al : Bool} {s : CmdLoop} {u : List Nat} {c : Nat} (h : Inv al s u) (hq : s.inQuote = false) (hc : c ≠ 0)
    (ht : (s.newCmd c).1 = false) (hb : s.newState c ≠ .break_) : Core al (s.step c) (u ++ [c]) := by
  have hm : Spec.mode u = .plain := by rw [h.mode, hq]; rfl
  constructor
  · intro h34
    simp only [CmdLoop.step, beq_iff_eq] at h34 ⊢
    subst h34
    exact newState_txt h.state (by decide)
  · exact state_step h hq hc hb
  · exact forced_step h.forced hm rfl h.state
  · intro ha
    have ha' : s.newAny c = false := ha
    have : s.anyText = false := by
      simp only [CmdLoop.newAny, Bool.or_eq_false_iff] at ha'; exact ha'.1
    exact ⟨(h.any this).1, any_step hc h.state (h.any this).2 ha'⟩
  · intro ha
    have ha' : (s.anyText || s.textChar c) = true := ha
    rcases Bool.or_eq_true_iff.1 ha' with h1 | h1
    · rcases h.text h1 with h2 | h2
      · exact .inl h2
      · exact .inr (h2.mono _)
    · exact .inr ⟨u, c, [], rfl, hm, textChar_ne hc h.state h1⟩
  · have := h.cmd
    cases al
    · simp only [Bool.false_eq_true, if_false] at this ⊢
      exact ⟨(cmd_step hc hm h.state this.1 ht hb rfl rfl rfl rfl).1, forced_cmd this.2 ht⟩
    · simp only [if_true] at this ⊢
      show (s.newCmd c).2.failed = true
      rw [newCmd_failed this]; exact this
  · apply h.good.snoc
    intro hs _
    rcases sep_step h.toCore hb hs with h1 | h1
    · exact .inl h1
    · exact .inr ⟨h1.1, .inl h1.2⟩

theorem core_skip {al : Bool} {s : CmdLoop} {u : List Nat} {c : Nat} (h : Core al s u) (hs : s.state = .txt) (hm : Spec.mode u ≠ .plain)
    (b : Bool) : Core al { s with inQuote := b } (u ++ [c]) := by
  constructor
  · intro _; exact hs
  · show StateOk s.state _
    rw [hs]; exact True.intro
  · show Forced s.state _
    rw [hs]; exact forced_quoted (hs ▸ h.forced) hm c
  · intro ha
    exact ⟨(h.any ha).1, (h.any ha).2.snoc fun hh => absurd hh hm⟩
  · intro ha
    rcases h.text ha with h2 | h2
    · exact .inl h2
    · exact .inr (h2.mono _)
  · have := h.cmd
    cases al
    · simp only [Bool.false_eq_true, if_false] at this ⊢
      exact ⟨cmd_skip hm this.1 b, forced_skip hm this.2 b⟩
    · exact this
  · exact h.good.snoc fun _ hh => absurd hh hm

theorem core_quirk {al : Bool} {s : CmdLoop} {u : List Nat} {c : Nat} (h : Inv al s u) (hq : s.inQuote = false) (hc : Digit c)
    (ht : (s.newCmd c).1 = false) (hx : s.textChar c = true) (hst : trans s.state (inputType c) = .txt) :
    Core al (s.step c) (u ++ [c] ++ [62]) ∧ s.newState c = .txt := by
  have hc0 : c ≠ 0 := by unfold Digit at hc; omega
  have hm : Spec.mode u = .plain := by rw [h.mode, hq]; rfl
  have hnew : s.newState c = .txt := by
    rw [newState_eq] <;> rw [hst]
    · rfl
    · decide
  have hb : s.newState c ≠ .break_ := by rw [hnew]; decide
  have h1 := core_step h hq hc0 ht hb
  have hnspc : s.state ≠ .spc := by
    intro hh; rw [hh, digit_type hc] at hst; simp [trans] at hst
  refine ⟨?_, hnew⟩
  constructor
  · exact h1.quote
  · show StateOk (s.newState c) _
    rw [hnew]; exact True.intro
  · show Forced (s.newState c) _
    constructor
    · rintro (h0 | ⟨q, b, he, hb, hq⟩)
      · simp at h0
      · obtain ⟨-, rfl⟩ := snoc_inj he
        unfold Blank at hb; omega
    · intro p d he hd hp
      obtain ⟨-, rfl⟩ := snoc_inj he
      unfold Digit at hd; omega
    · intro p d he hd hp
      obtain ⟨-, h2⟩ := snoc2_inj he
      omega
    · intro p d he hd hp
      obtain ⟨h2, -⟩ := snoc2_inj he
      obtain ⟨rfl, rfl⟩ := snoc_inj h2
      exact absurd (h.forced.start hp) hnspc
    · intro p d he hd hp
      obtain ⟨-, h2⟩ := snoc3_inj he
      omega
    · intro p d he hd hp
      obtain ⟨h2, -⟩ := snoc3_inj he
      obtain ⟨-, rfl⟩ := snoc2_inj h2
      unfold Digit at hc; omega
  · intro ha
    have ha' : s.newAny c = false := ha
    simp [CmdLoop.newAny, hx] at ha'
  · intro ha
    rcases h1.text ha with h2 | h2
    · exact .inl h2
    · exact .inr (h2.mono _)
  · have := h.cmd
    cases al
    · simp only [Bool.false_eq_true, if_false] at this ⊢
      obtain ⟨h2, h3⟩ := cmd_step (s' := s.step c) hc0 hm h.state this.1 ht hb rfl rfl rfl rfl
      refine ⟨cmd_angle ?_ h2 (h3 hc), forced_angle (forced_cmd this.2 ht)⟩
      rw [mode_snoc, hm]
      unfold Digit at hc
      simp only [Mode.step]
      rw [if_neg (by omega), if_neg (by omega)]
    · exact h1.cmd
  · apply h1.good.snoc
    intro hs
    unfold IsSep at hs; omega

/-! The loop. -/

theorem flat_cons (c : Nat) (r : List Nat) : flat (c :: r) = specUtf8 c ++ flat r := rfl

theorem peek_cons {c : Nat} {r : List Nat} (h : ∀ x ∈ c :: r, IsText x) : peek (flat (c :: r)) = c := peek_flat (h c (by simp)) _
theorem next_cons {c : Nat} {r : List Nat} (h : ∀ x ∈ c :: r, IsText x) : next (flat (c :: r)) = flat r := next_flat (h c (by simp)) _
theorem more_cons {c : Nat} {r : List Nat} (h : ∀ x ∈ c :: r, IsText x) : more (flat (c :: r)) = true := more_flat (h c (by simp)) _

theorem afterChar_flat (text : List Nat) (s : CmdLoop) (c : Nat) (r : List Nat) (hr : ∀ x ∈ r, IsText x) :
    (c = 94 ∧ r = [] ∧ afterChar text s c (flat r) = []) ∨
    (∃ y r', c = 94 ∧ r = y :: r' ∧ afterChar text s c (flat r) = flat r') ∨
    (c ≠ 94 ∧ afterChar text s c (flat r) = flat r) ∨
    (∃ r', c ≠ 94 ∧ r = 62 :: r' ∧ afterChar text s c (flat r) = flat r' ∧ s.textChar c = true ∧ inputType c = .dig ∧
      trans s.state (inputType c) = .txt) := by
  by_cases h94 : c = 94
  · subst h94
    have hd : inputType 94 ≠ .dig := by decide
    cases r with
    | nil => exact .inl ⟨rfl, rfl, by simp [afterChar, hd, flat]; rfl⟩
    | cons y r' =>
      refine .inr (.inl ⟨y, r', rfl, rfl, ?_⟩)
      simp [afterChar, hd, next_cons hr]
  · by_cases hq : s.textChar c ∧ inputType c = .dig ∧ trans s.state (inputType c) = .txt ∧ 2 ≤ text.length - (flat r).length ∧
        text.getD (text.length - (flat r).length - 2) 0 = 64 ∧ peek (flat r) = 62
    · refine .inr (.inr (.inr ?_))
      cases r with
      | nil => exact absurd hq.2.2.2.2.2 (by decide)
      | cons y r' =>
        have hp := hq.2.2.2.2.2
        rw [peek_cons hr] at hp
        subst hp
        refine ⟨r', h94, rfl, ?_, hq.1, hq.2.1, hq.2.2.1⟩
        simp only [afterChar, h94, if_false]
        rw [if_pos hq, next_cons hr]
    · refine .inr (.inr (.inl ⟨h94, ?_⟩))
      simp only [afterChar, h94, if_false]
      rw [if_neg hq]

theorem sep_of_break {s : CmdLoop} {u : List Nat} {c : Nat} (ho : StateOk s.state u) (hc : c ≠ 0) (h : s.newState c = .break_) : IsSep c := by
  have hi := inputType_iff hc
  have key : ∀ (st : St) (i : Inp), StateOk st u → i ≠ .amp → i ≠ .pipe → trans st i ≠ .break_ ∧
      (if (trans st i).ends then trans .spc i else trans st i) ≠ .break_ := by
    intro st i h; cases st <;> cases i <;> simp [StateOk] at h <;> decide
  by_cases h1 : inputType c = .amp
  · rw [h1] at hi; exact .inl hi
  · by_cases h2 : inputType c = .pipe
    · rw [h2] at hi; exact .inr hi
    · have := key _ _ ho h1 h2
      rw [newState_eq _ _ this.1] at h
      exact absurd h this.2

theorem break_handle {s : CmdLoop} {u : List Nat} (hf : Forced s.state u) (h : s.newState 38 = .break_) : ¬ PlainHandle u := by
  have key : ∀ st : St, st ∈ [.din, .dout, .din2, .dout2] → trans st (inputType 38) ≠ .break_ ∧
      (if (trans st (inputType 38)).ends then trans .spc (inputType 38) else trans st (inputType 38)) ≠ .break_ := by
    intro st hst
    simp only [List.mem_cons, List.not_mem_nil, or_false] at hst
    rcases hst with rfl | rfl | rfl | rfl <;> decide
  rintro ⟨p, d, r, rfl, hd, hr, hp⟩
  have : s.state ∈ [.din, .dout, .din2, .dout2] := by
    rcases hr with rfl | rfl | rfl | rfl
    · rw [hf.lt p d rfl hd hp]; decide
    · rw [hf.gt p d rfl hd hp]; decide
    · rw [hf.lt2 p d rfl hd hp]; decide
    · rw [hf.gt2 p d rfl hd hp]; decide
  have := key _ this
  rw [newState_eq _ _ this.1] at h
  exact this.2 h

theorem Good.rem {u : List Nat} (h : Good false u) (hr : Remark u) (v : List Nat) : Good false (u ++ v) := by
  intro x s y he hs hm
  rcases List.append_eq_append_iff.1 he with ⟨a, h1, h2⟩ | ⟨b, h1, h2⟩
  · rw [h1]; exact .inr ⟨rfl, .inr (hr.mono _)⟩
  · cases b with
    | nil => simp at h1 h2; rw [← h1]; exact .inr ⟨rfl, .inr hr⟩
    | cons b0 b =>
      simp only [List.cons_append, List.cons.injEq] at h2
      obtain ⟨rfl, -⟩ := h2
      exact h x s b h1 hs hm

theorem Good.mono {al : Bool} {u v : List Nat} (h : Good al (u ++ v)) : Good al u := by
  intro x s y he hs hm
  exact h x s (y ++ v) (by rw [he]; simp) hs hm

/-- The end of the command. -/
def EndOk (al : Bool) (u v v' : List Nat) : Prop :=
  ∃ w, v = w ++ v' ∧ Good al (u ++ w) ∧
    (v' = [] ∨ ∃ c r, v' = c :: r ∧ IsSep c ∧ mode (u ++ w) = .plain ∧ ¬ (c = 38 ∧ PlainHandle (u ++ w)) ∧
      (al = false → ¬ PlainRemark (u ++ w) ∧ (Started (u ++ w) ∨ AfterRedir (u ++ w))))

theorem EndOk.cons {al : Bool} {u k v v' : List Nat} (h : EndOk al (u ++ k) v v') : EndOk al u (k ++ v) v' := by
  obtain ⟨w, rfl, hg, he⟩ := h
  exact ⟨k ++ w, by simp, by simpa using hg, by simpa using he⟩

theorem cmdLoop_nil (text : List Nat) (s : CmdLoop) : cmdLoop text s [] = [] := by
  unfold cmdLoop; rw [dif_neg (by decide)]

theorem sep_ascii {c : Nat} (h : IsSep c) : specUtf8 c = [c] := spec_ascii (by unfold IsSep at h; omega)

theorem cmdLoop_flat (text : List Nat) (al : Bool) (n : Nat) : ∀ (s : CmdLoop) (u v : List Nat), v.length ≤ n → (∀ x ∈ v, IsText x) →
    flat v <:+ text → Inv al s u → ∃ v', cmdLoop text s (flat v) = flat v' ∧ EndOk al u v v' := by
  induction n with
  | zero =>
    intro s u v hn hv ht h
    obtain rfl : v = [] := List.eq_nil_of_length_eq_zero (by omega)
    exact ⟨[], cmdLoop_nil _ _, [], rfl, by simpa using h.good, .inl rfl⟩
  | succ n ih =>
    intro s u v hn hv ht h
    cases v with
    | nil => exact ⟨[], cmdLoop_nil _ _, [], rfl, by simpa using h.good, .inl rfl⟩
    | cons c r =>
      have hr : ∀ x ∈ r, IsText x := fun x hx => hv x (List.mem_cons_of_mem _ hx)
      have hc0 : c ≠ 0 := by have := (hv c (by simp)).1; omega
      have htr : flat r <:+ text := List.IsSuffix.trans ⟨specUtf8 c, rfl⟩ ht
      have hlen : r.length ≤ n := by simpa using hn
      rw [cmdLoop, dif_pos (more_cons hv)]
      rw [peek_cons hv, next_cons hv]
      split
      · rename_i hq
        have hst := h.quote hq
        have hm : Spec.mode u = .quoted := by rw [h.mode, hq]; rfl
        have hinv : Inv al { s with inQuote := c != 34 } (u ++ [c]) := by
          refine ⟨core_skip h.toCore hst (by rw [hm]; decide) _, ?_⟩
          rw [mode_snoc, hm]
          by_cases h34 : c = 34 <;> simp [Mode.step, h34]
        obtain ⟨v', h1, h2⟩ := ih _ _ _ hlen hr htr hinv
        exact ⟨v', h1, h2.cons⟩
      · rename_i hq
        have hq : s.inQuote = false := by simpa using hq
        have hm : Spec.mode u = .plain := by rw [h.mode, hq]; rfl
        unfold plainChar
        by_cases hcmd : (s.newCmd c).1 = true
        · rw [if_pos hcmd]
          refine ⟨[], rfl, c :: r, by simp, ?_, .inl rfl⟩
          have hal : al = false := by
            cases al
            · rfl
            · have := h.cmd
              simp only [if_true] at this
              rw [newCmd_failed this] at hcmd; simp at hcmd
          subst hal
          have := h.cmd
          simp only [Bool.false_eq_true, if_false] at this
          obtain ⟨h1, h2⟩ := cmd_true hc0 hm h.state this.1 hcmd
          have hg : Good false (u ++ [c]) := h.good.snoc fun hs _ => .inr ⟨rfl, .inr (h2 hs)⟩
          have := hg.rem h1 r
          simpa using this
        · rw [if_neg hcmd]
          have hcmd : (s.newCmd c).1 = false := by simpa using hcmd
          by_cases hb : s.newState c = .break_
          · rw [if_pos hb]
            have hsep := sep_of_break h.state hc0 hb
            refine ⟨c :: r, ?_, [], rfl, by simpa using h.good, .inr ⟨c, r, rfl, hsep, by simpa using hm, ?_, ?_⟩⟩
            · have ha : afterChar text s c (flat r) = flat r := by
                rcases afterChar_flat text s c r hr with ⟨h94, -⟩ | ⟨-, -, h94, -⟩ | ⟨-, h⟩ | ⟨r', -, -, -, -, hd, -⟩
                · subst h94; simp [IsSep] at hsep
                · subst h94; simp [IsSep] at hsep
                · exact h
                · rcases hsep with rfl | rfl <;> simp [inputType] at hd
              obtain ⟨p, hp⟩ := ht
              show text.drop (text.length - (afterChar text s c (flat r)).length - 1) = flat (c :: r)
              rw [ha, flat_cons, sep_ascii hsep, ← hp, flat_cons, sep_ascii hsep]
              have : (p ++ ([c] ++ flat r)).length - (flat r).length - 1 = p.length := by simp; omega
              rw [this]; simp
            · rintro ⟨rfl, hph⟩
              rw [List.append_nil] at hph
              exact break_handle h.forced hb hph
            · rintro rfl
              have := h.cmd
              simp only [Bool.false_eq_true, if_false] at this
              rw [List.append_nil]
              refine ⟨this.2.2, ?_⟩
              rcases break_started h.toCore hsep hb with h | h
              · simp at h
              · exact h
          · rw [if_neg hb]
            show ∃ v', cmdLoop text (s.step c) (afterChar text s c (flat r)) = _ ∧ _
            have hcore := core_step h hq hc0 hcmd hb
            rcases afterChar_flat text s c r hr with ⟨rfl, rfl, ha⟩ | ⟨y, r', rfl, rfl, ha⟩ | ⟨h94, ha⟩ | ⟨r', h94, rfl, ha, hx, hd, hst⟩
            · rw [ha, cmdLoop_nil]
              exact ⟨[], rfl, [94], by simp, hcore.good, .inl rfl⟩
            · rw [ha]
              have hm1 : Spec.mode (u ++ [94]) = .escaped := by rw [mode_snoc, hm]; rfl
              have hinv : Inv al (s.step 94) (u ++ [94] ++ [y]) := by
                refine ⟨core_skip hcore (newState_txt h.state (by decide)) (by rw [hm1]; decide) _, ?_⟩
                rw [mode_snoc, hm1]; rfl
              obtain ⟨v', h1, h2⟩ := ih (s.step 94) _ r' (by simp at hlen; omega) (fun x hx => hr x (List.mem_cons_of_mem _ hx))
                (List.IsSuffix.trans ⟨specUtf8 y, rfl⟩ htr) hinv
              refine ⟨v', h1, ?_⟩
              rw [List.append_assoc] at h2
              exact h2.cons
            · rw [ha]
              have hinv : Inv al (s.step c) (u ++ [c]) := by
                refine ⟨hcore, ?_⟩
                rw [mode_snoc, hm]
                by_cases h34 : c = 34 <;> simp [Mode.step, h34, h94, CmdLoop.step]
              obtain ⟨v', h1, h2⟩ := ih _ _ _ hlen hr htr hinv
              exact ⟨v', h1, h2.cons⟩
            · rw [ha]
              have hdig : Digit c := by have := inputType_iff hc0; rw [hd] at this; exact this
              have h34 : c ≠ 34 := by unfold Digit at hdig; omega
              obtain ⟨hq2, -⟩ := core_quirk h hq hdig hcmd hx hst
              have hinv : Inv al (s.step c) (u ++ [c] ++ [62]) := by
                refine ⟨hq2, ?_⟩
                rw [mode_snoc, mode_snoc, hm]
                simp [Mode.step, h34, h94, CmdLoop.step]
              obtain ⟨v', h1, h2⟩ := ih (s.step c) _ r' (by simp at hlen; omega) (fun x hx => hr x (List.mem_cons_of_mem _ hx))
                (List.IsSuffix.trans ⟨specUtf8 62, rfl⟩ htr) hinv
              refine ⟨v', h1, ?_⟩
              rw [List.append_assoc] at h2
              exact h2.cons

end Clink.Tokens
