import Verif.Proof.TokensSplit

namespace Clink.Tokens

open Utf (more next8 IsText specUtf8)
open Doskey Doskey.Spec Tokens.Spec

/-! The words of one command, for arbitrary bytes. -/

theorem skipSeps_suffix (ds l : List Nat) : skipSeps ds l <:+ l := by
  fun_induction skipSeps ds l with
  | case1 l h h1 h2 ih => exact ih.trans ((next_suffix _).trans (next_suffix _))
  | case2 => exact List.suffix_refl _
  | case3 l h h1 h2 ih => exact ih.trans (next_suffix _)
  | case4 => exact List.suffix_refl _
  | case5 => exact List.suffix_refl _

/-- What holds of the variables of the loop.  `S` is where the first word starts, `L` the length of the text left at
the beginning. -/
structure WInv (text : List Nat) (L S : Nat) (s : WordLoop) : Prop where
  suf : s.iter <:+ text
  lo : S ≤ s.startWord
  se : s.startWord ≤ s.endWord
  hi : s.endWord ≤ text.length - s.iter.length
  it : s.iter.length ≤ L
  fc : s.firstChar = false → s.iter.length < L
  cm : s.firstChar = true → s.cmd.failed = true ∨ s.cmd.word = [] ∧ s.cmd.isMatch = false
  fi : s.cmd.first = false
  iq : s.inQuote = true → s.firstChar = false

theorem nextWord_first (s : CmdState) : s.nextWord.first = false := by
  unfold CmdState.nextWord; split <;> simp_all

theorem nextWord_ok {s : CmdState} (h : s.failed = true ∨ s.word = [] ∧ s.isMatch = false) :
    s.nextWord.failed = true ∨ s.nextWord.word = [] ∧ s.nextWord.isMatch = false := by
  unfold CmdState.nextWord; split <;> simp_all

theorem test_first (cs : CmdState) (c : Nat) (st : St) : (cs.test c st).2.first = cs.first := by
  unfold CmdState.test
  dsimp only
  generalize (if c = 0 then cs.word else cs.word ++ [c]) = w
  cases isCmdCommand w <;> dsimp only <;> repeat' (first | rfl | split)

theorem startNew_inv {text : List Nat} {L S : Nat} {s : WordLoop} {cw : Bool} (hS : S ≤ text.length - (skipSeps (getDelims cw s.nextRedir false) s.iter).length) (h1 : s.iter <:+ text)
    (h2 : s.iter.length ≤ L) (h3 : s.firstChar = false → s.iter.length < L)
    (h4 : s.firstChar = true → s.cmd.failed = true ∨ s.cmd.word = [] ∧ s.cmd.isMatch = false)
    (h5 : s.inQuote = true → s.firstChar = false) : WInv text L S (s.startNew text.length cw) := by
  have hs := skipSeps_suffix (getDelims cw s.nextRedir false) s.iter
  have hl := hs.length_le
  constructor
  · exact hs.trans h1
  · exact hS
  · exact Nat.le_refl _
  · exact Nat.le_refl _
  · exact Nat.le_trans hl h2
  · intro h; exact Nat.lt_of_le_of_lt hl (h3 h)
  · intro h; exact nextWord_ok (h4 h)
  · exact nextWord_first _
  · exact h5

theorem look_inv {text : List Nat} {L S : Nat} {s : WordLoop} {cw : Bool} (h : WInv text L S s) : WInv text L S (s.look text.length cw).2 := by
  have hn := h.suf.length_le
  unfold WordLoop.look
  simp only
  split
  · split
    · exact ⟨h.suf, h.lo, h.se, h.hi, h.it, h.fc, h.cm, h.fi, h.iq⟩
    · have hS : S ≤ text.length - (skipSeps (getDelims cw (decide (wordState s.state (peek s.iter) = .arg)) false) s.iter).length := by
        have h1 := Nat.le_trans h.lo (Nat.le_trans h.se h.hi)
        have h2 := skipSeps_le (getDelims cw (decide (wordState s.state (peek s.iter) = .arg)) false) s.iter
        omega
      have hw := startNew_inv (s := { s with c := peek s.iter, firstSlash := if s.firstChar then peek s.iter == 47 else s.firstSlash, nextRedir := decide (wordState s.state (peek s.iter) = .arg), state := .spc }) (cw := cw) hS h.suf h.it h.fc h.cm h.iq
      generalize WordLoop.startNew text.length cw { s with c := peek s.iter, firstSlash := if s.firstChar then peek s.iter == 47 else s.firstSlash, nextRedir := decide (wordState s.state (peek s.iter) = .arg), state := .spc } = w at *
      split
      · exact ⟨hw.suf, hw.lo, Nat.le_trans hw.se hw.hi, Nat.le_refl _, hw.it, hw.fc, hw.cm, hw.fi, hw.iq⟩
      · exact ⟨hw.suf, hw.lo, hw.se, hw.hi, hw.it, hw.fc, hw.cm, hw.fi, hw.iq⟩
  · split
    · exact ⟨h.suf, h.lo, Nat.le_trans h.se h.hi, Nat.le_refl _, h.it, h.fc, h.cm, h.fi, h.iq⟩
    · exact ⟨h.suf, h.lo, h.se, h.hi, h.it, h.fc, h.cm, h.fi, h.iq⟩

theorem look_stop {n : Nat} {s : WordLoop} {cw : Bool} (h : (s.look n cw).1 = true) :
    (s.look n cw).2.startWord < (s.look n cw).2.endWord := by
  unfold WordLoop.look at *
  simp only at *
  split at h
  · rename_i h1
    rw [if_pos h1]
    split at h
    · rename_i h2; rw [if_pos h2]; exact h2
    · simp at h
  · simp at h

theorem eatIter_suffix (after : Nat) (s : WordLoop) : s.eatIter after <:+ s.iter := by
  unfold WordLoop.eatIter
  split
  · exact (next_suffix _).trans (next_suffix _)
  · exact next_suffix _

theorem eatIter_lt (after : Nat) (s : WordLoop) (h : more s.iter = true) : (s.eatIter after).length < s.iter.length := by
  unfold WordLoop.eatIter
  split
  · exact Nat.lt_of_le_of_lt (next_le _) (next_lt h)
  · exact next_lt h

theorem eatCmd_first (after : Nat) (s : WordLoop) : (s.eatCmd after).2.first = s.cmd.first := by
  unfold WordLoop.eatCmd
  split
  · exact test_first _ _ _
  · rfl

theorem test_true {cs : CmdState} {c : Nat} {st : St} (h : (cs.test c st).1 = true) : cs.failed = false ∧ cs.isMatch = true := by
  unfold CmdState.test at h
  split at h
  · simp at h
  · rename_i h1
    split at h
    · simp at h
    · split at h
      · simp at h
      · split at h
        · rename_i h2; exact ⟨by simpa using h1, h2.1⟩
        · generalize (if c = 0 then cs.word else cs.word ++ [c]) = w at h
          cases hw : isCmdCommand w
          · simp [hw] at h
          · simp only [hw] at h
            split at h <;> simp at h

/-- The result of a call. -/
structure WDone (text : List Nat) (L S : Nat) (s : WordLoop) : Prop where
  suf : s.iter <:+ text
  lo : S ≤ s.startWord
  se : s.startWord ≤ s.endWord
  hi : s.endWord ≤ text.length - s.iter.length
  lt : s.iter.length < L
  fi : s.cmd.first = false

theorem WInv.done {text : List Nat} {L S : Nat} {s : WordLoop} (h : WInv text L S s) (hl : s.iter.length < L) : WDone text L S s :=
  ⟨h.suf, h.lo, h.se, h.hi, hl, h.fi⟩

theorem eat_stop {text : List Nat} {L S after : Nat} {s : WordLoop} {cw : Bool} (h : WInv text L S s) (hm : more s.iter = true)
    (he : (s.eat text.length after cw).1 = true) : WDone text L S (s.eat text.length after cw).2 := by
  have hn := h.suf.length_le
  have hi := h.hi
  have hit := h.it
  unfold WordLoop.eat at *
  split at he
  · rename_i hb
    rw [if_pos hb]
    have hfc : s.firstChar = false := by
      cases hf : s.firstChar
      · rfl
      · exfalso
        unfold WordLoop.endsBefore at hb
        simp only [hf, Bool.or_eq_true, decide_eq_true_eq, Bool.true_eq_false, false_and, and_false, or_false] at hb
        unfold WordLoop.eatCmd at hb
        split at hb
        · obtain ⟨h1, h2⟩ := test_true hb
          rcases h.cm hf with h3 | h3
          · rw [h1] at h3; simp at h3
          · rw [h3.2] at h2; simp at h2
        · simp at hb
    exact ⟨h.suf, h.lo, h.se, h.hi, h.fc hfc, by rw [eatCmd_first]; exact h.fi⟩
  · rename_i hb
    rw [if_neg hb]
    have hs := eatIter_suffix after s
    have hl := eatIter_lt after s hm
    split at he
    · rename_i ha
      rw [if_pos ha]
      refine ⟨hs.trans h.suf, h.lo, h.se, ?_, ?_, by rw [eatCmd_first]; exact h.fi⟩
      · simp only; omega
      · simp only; omega
    · simp at he

theorem eat_inv {text : List Nat} {L S after : Nat} {s : WordLoop} {cw : Bool} (h : WInv text L S s) (hm : more s.iter = true)
    (he : (s.eat text.length after cw).1 = false) : WInv text L S { (s.eat text.length after cw).2 with firstChar := false } := by
  have hn := h.suf.length_le
  have hi := h.hi
  have hit := h.it
  have hse := h.se
  unfold WordLoop.eat at *
  split at he
  · simp at he
  · rename_i hb
    rw [if_neg hb]
    have hs := eatIter_suffix after s
    have hl := eatIter_lt after s hm
    split at he
    · simp at he
    · rename_i ha
      rw [if_neg ha]
      refine ⟨hs.trans h.suf, h.lo, ?_, ?_, ?_, ?_, by simp, ?_, by simp⟩
      · show s.startWord ≤ if _ then _ else _
        have h1 : text.length - s.iter.length ≤ text.length - (s.eatIter after).length := by omega
        split
        · exact Nat.le_trans hse (Nat.le_trans hi h1)
        · exact hse
      · show (if _ then _ else _) ≤ _
        split
        · exact Nat.le_refl _
        · simp only; omega
      · simp only; omega
      · simp only; omega
      · show (s.eatCmd after).2.first = false
        rw [eatCmd_first]; exact h.fi

theorem quoted_inv {text : List Nat} {L S : Nat} {s : WordLoop} (h : WInv text L S s) (hm : more s.iter = true) :
    WInv text L S (s.quoted text.length) := by
  have hn := h.suf.length_le
  have hi := h.hi
  have hse := h.se
  have hit := h.it
  have hl := next_lt hm
  refine ⟨(next_suffix _).trans h.suf, h.lo, ?_, ?_, ?_, ?_, by simp [WordLoop.quoted], h.fi, by simp [WordLoop.quoted]⟩
  · simp only [WordLoop.quoted]; omega
  · simp only [WordLoop.quoted]; omega
  · simp only [WordLoop.quoted]; omega
  · simp only [WordLoop.quoted]; omega

theorem wordLoop_done {text : List Nat} {L S after : Nat} {cw : Bool} (hL : ∀ l : List Nat, l <:+ text → l.length = L → more l = true)
    (hS : text.length - L ≤ S) (hLn : L ≤ text.length) (s : WordLoop)
    (h : WInv text L S s) : WDone text L S (wordLoop text.length after cw s) := by
  obtain ⟨n, hn⟩ : ∃ n, n = text.length := ⟨_, rfl⟩
  rw [← hn]
  fun_induction wordLoop n after cw s with
  | case1 s hq hm ih => exact ih (hn ▸ quoted_inv h hm)
  | case2 s hq hm => exact h.done (h.fc (h.iq hq))
  | case3 s hq p hp =>
    subst hn
    have hi := look_inv (cw := cw) h
    have h1 := look_stop hp
    refine hi.done ?_
    have h2 := hi.lo
    have h3 := hi.hi
    have h4 := hi.suf.length_le
    omega
  | case4 s hq p hp hm e he =>
    subst hn
    exact eat_stop (look_inv h) hm he
  | case5 s hq p hp hm e he ih =>
    subst hn
    exact ih (eat_inv (look_inv h) hm (by simpa using he))
  | case6 s hq p hp hm =>
    subst hn
    have hi := look_inv (cw := cw) h
    refine hi.done ?_
    rcases Nat.lt_or_ge p.2.iter.length L with h1 | h1
    · exact h1
    · exact absurd (hL _ hi.suf (Nat.le_antisymm hi.it h1)) hm

/-! The tokens are in order. -/

/-- The number of `=` at the start. -/
def eqs (l : List Nat) : Nat := (l.takeWhile (· == 61)).length

/-- Tokens between `pos` and the end; `=` signs are skipped before each. -/
def Chain (text : List Nat) : Nat → List Tok → Prop
  | _, [] => True
  | pos, t :: ts => pos + eqs (text.drop pos) ≤ t.offset ∧ t.offset + t.length ≤ text.length ∧ Chain text (t.offset + t.length) ts

theorem next_ascii {c : Nat} (h0 : c ≠ 0) (h : c < 128) (l : List Nat) : next (c :: l) = l ∧ peek (c :: l) = c ∧ more (c :: l) = true := by
  have ht : IsText c := ⟨by omega, by omega, by omega⟩
  have hs := spec_ascii h
  refine ⟨?_, ?_, ?_⟩
  · have := next_flat ht l; rwa [hs] at this
  · have := peek_flat ht l; rwa [hs] at this
  · have := more_flat ht l; rwa [hs] at this

theorem skipSeps_eqs (cw r w : Bool) (l : List Nat) : eqs l + (skipSeps (getDelims cw r w) l).length ≤ l.length := by
  induction l with
  | nil => simp [eqs, skipSeps, more]
  | cons c l ih =>
    by_cases hc : c = 61
    · subst hc
      obtain ⟨h1, h2, h3⟩ := next_ascii (c := 61) (by decide) (by decide) l
      have hd : isDelim (getDelims cw r w) 61 = true := by cases cw <;> cases r <;> cases w <;> decide
      rw [skipSeps, dif_pos h3, h2, if_neg (by decide), hd, if_pos rfl, h1]
      have : eqs (61 :: l) = eqs l + 1 := by simp [eqs]
      rw [this, List.length_cons]; omega
    · have : eqs (c :: l) = 0 := by simp [eqs, hc]
      rw [this, Nat.zero_add]; exact skipSeps_le _ _

theorem eqs_drop (l : List Nat) (k : Nat) (h : k ≤ eqs l) : eqs (l.drop k) = eqs l - k := by
  induction k generalizing l with
  | zero => simp
  | succ k ih =>
    cases l with
    | nil => simp [eqs] at h
    | cons c l =>
      by_cases hc : c = 61
      · subst hc
        have he : eqs (61 :: l) = eqs l + 1 := by simp [eqs]
        rw [he] at h ⊢
        rw [List.drop_succ_cons, ih l (by omega)]; omega
      · simp [eqs, hc] at h

theorem drop_suffix_eq {l text : List Nat} (h : l <:+ text) : text.drop (text.length - l.length) = l := by
  obtain ⟨p, rfl⟩ := h
  simp

theorem tokens_chain (text : List Nat) (after : Nat) (t : WordTok) : t.iter <:+ text →
    (t.cmd.failed = true ∨ (t.cmd.word = [] ∧ t.cmd.isMatch = false) ∨ t.cmd.first = false) →
    ∃ ts, tokens text.length after t = some ts ∧ ∀ pos, pos ≤ text.length - t.iter.length → Chain text pos ts := by
  obtain ⟨n, hn⟩ : ∃ n, n = text.length := ⟨_, rfl⟩
  rw [← hn]
  have key : ∀ t : WordTok, t.iter <:+ text → more t.iter = true →
      (t.cmd.failed = true ∨ (t.cmd.word = [] ∧ t.cmd.isMatch = false) ∨ t.cmd.first = false) →
      let r := t.next text.length after
      r.2.iter <:+ text ∧ r.2.iter.length < t.iter.length ∧ r.2.cmd.first = false ∧
      (∀ pos, pos ≤ text.length - t.iter.length → pos + eqs (text.drop pos) ≤ r.1.offset) ∧ r.1.offset + r.1.length ≤ text.length - r.2.iter.length := by
    intro t hs hm hc
    have hln := hs.length_le
    have hcm : t.cmd.nextWord.failed = true ∨ t.cmd.nextWord.word = [] ∧ t.cmd.nextWord.isMatch = false := by
      rcases hc with h | h | h
      · exact nextWord_ok (.inl h)
      · exact nextWord_ok (.inr h)
      · left; simp [CmdState.nextWord, h]
    have hss := skipSeps_suffix (getDelims t.commandWord t.nextRedir false) t.iter
    have hinv : WInv text t.iter.length (text.length - (skipSeps (getDelims t.commandWord t.nextRedir false) t.iter).length)
        (WordLoop.startNew text.length t.commandWord
          { iter := t.iter, nextRedir := t.nextRedir, cmd := t.cmd, redirArg := false, startWord := 0, endWord := 0 }) :=
      ⟨hss.trans hs, Nat.le_refl _, Nat.le_refl _, Nat.le_refl _, hss.length_le, by simp [WordLoop.startNew], fun _ => hcm, nextWord_first _,
        by simp [WordLoop.startNew]⟩
    have hd := wordLoop_done (after := after) (cw := t.commandWord) (fun l hl hlen => by
      have : l = t.iter := by
        rw [← drop_suffix_eq hl, ← drop_suffix_eq hs, hlen]
      rw [this]; exact hm) (by have := hss.length_le; omega) hln _ hinv
    refine ⟨hd.suf, hd.lt, hd.fi, ?_, ?_⟩
    · intro pos hpos
      refine Nat.le_trans ?_ hd.lo
      have h1 := skipSeps_eqs t.commandWord t.nextRedir false t.iter
      have h2 := hss.length_le
      rcases Nat.lt_or_ge (text.length - t.iter.length) (pos + eqs (text.drop pos)) with h3 | h3
      · have h4 := eqs_drop (text.drop pos) (text.length - t.iter.length - pos) (by omega)
        rw [List.drop_drop, show pos + (text.length - t.iter.length - pos) = text.length - t.iter.length by omega, drop_suffix_eq hs] at h4
        omega
      · omega
    · have h1 := hd.se
      have h2 := hd.hi
      show WordLoop.startWord _ + (WordLoop.endWord _ - WordLoop.startWord _) ≤ _
      simp only [WordTok.next]
      omega
  fun_induction tokens n after t with
  | case1 t hm r hr => intro _ _; exact ⟨[], rfl, fun _ _ => True.intro⟩
  | case2 t hm r hr hlt ih =>
    subst hn
    intro hs hc
    obtain ⟨k1, k2, k3, k4, k5⟩ := key t hs hm hc
    obtain ⟨ts, h1, h2⟩ := ih k1 (.inr (.inr k3))
    refine ⟨r.1 :: ts, by rw [h1]; rfl, fun pos hp => ⟨k4 pos hp, Nat.le_trans k5 (Nat.sub_le _ _), h2 _ k5⟩⟩
  | case3 t hm r hr hlt =>
    subst hn
    intro hs hc
    exact absurd (key t hs hm hc).2.1 hlt
  | case4 t hm => intro _ _; exact ⟨[], rfl, fun _ _ => True.intro⟩

/-! Order of words. -/

def Word.range (w : Word) : Nat × Nat := (w.offset, w.length)

def WOrd (buffer : List Nat) (stop pos : Nat) (ws : List Word) : Prop := WordsOrdered buffer stop pos (ws.map Word.range)

theorem Spec.WordsOrdered.mono {buffer : List Nat} {stop pos pos' : Nat} {rs : List (Nat × Nat)} (h : WordsOrdered buffer stop pos' rs)
    (hp : pos ≤ pos') : WordsOrdered buffer stop pos rs := by
  cases rs with
  | nil => exact True.intro
  | cons r rs =>
    obtain ⟨h1, h2⟩ := h
    refine ⟨?_, h2⟩
    rcases h1 with h1 | h1
    · exact .inl (Nat.le_trans hp h1)
    · rcases Nat.lt_or_ge pos pos' with h3 | h3
      · exact .inl (by omega)
      · have : pos = pos' := by omega
        exact .inr (this ▸ h1)

theorem Spec.WordsOrdered.stop_mono {buffer : List Nat} {stop stop' pos : Nat} {rs : List (Nat × Nat)} (h : WordsOrdered buffer stop pos rs)
    (hs : stop ≤ stop') : WordsOrdered buffer stop' pos rs := by
  induction rs generalizing pos with
  | nil => exact True.intro
  | cons r rs ih => exact ⟨h.1, Nat.le_trans h.2.1 hs, ih h.2.2⟩

theorem Spec.WordsOrdered.append {buffer : List Nat} {stop stop' pos : Nat} {rs qs : List (Nat × Nat)} (h : WordsOrdered buffer stop pos rs)
    (hp : pos ≤ stop) (hs : stop ≤ stop') (h' : WordsOrdered buffer stop' stop qs) : WordsOrdered buffer stop' pos (rs ++ qs) := by
  induction rs generalizing pos with
  | nil => exact h'.mono hp
  | cons r rs ih => exact ⟨h.1, Nat.le_trans h.2.1 hs, ih h.2.2 h.2.1⟩

theorem flagLoop_le (n : Nat) (l : List Nat) (k : Nat) (b : Bool) (h : flagLoop n l = (some k, b)) : k ≤ n := by
  fun_induction flagLoop n l with
  | case1 => simp at h
  | case2 l hm h0 h1 => simp only [Prod.mk.injEq, Option.some.injEq] at h; omega
  | case3 l hm h0 h1 h2 ih => exact ih h
  | case4 => simp at h
  | case5 => simp at h

theorem mkWord_range {o n : Nat} (ho : o < 65536) (hn : n < 65536) (a b c : Bool) (d : Nat) : (mkWord o n a b c d).range = (o, n) := by
  simp [mkWord, Word.range, Nat.mod_eq_of_lt ho, Nat.mod_eq_of_lt hn]

/-- The end of the last word of a token. -/
theorem tokenWords_order {buffer : List Nat} {base stop pos : Nat} {depr first : Bool} {t : Tok} {rest : List Word}
    (hst : stop ≤ buffer.length) (hb : buffer.length < 65536)
    (h1 : pos ≤ base + t.offset) (h2 : base + t.offset + t.length ≤ stop)
    (hr : WOrd buffer stop (base + t.offset + t.length + eqs ((buffer.take stop).drop (base + t.offset + t.length))) rest) :
    WOrd buffer stop pos (tokenWords buffer base stop depr first t ++ rest) := by
  unfold tokenWords
  simp only
  -- the adjusted start and length
  obtain ⟨o, n, ho, hn, he, hp⟩ : ∃ o n,
      o = (if 2 ≤ t.offset + base ∧ buffer.getD (t.offset + base - 1) 0 = 43 ∧ buffer.getD (t.offset + base - 2) 0 = 32 then t.offset + base - 1 else t.offset + base) ∧
      n = (if 2 ≤ t.offset + base ∧ buffer.getD (t.offset + base - 1) 0 = 43 ∧ buffer.getD (t.offset + base - 2) 0 = 32 then t.length + 1 else t.length) ∧
      o + n = base + t.offset + t.length ∧
      (pos ≤ o ∨ o + 1 = pos ∧ o ≠ 0 ∧ buffer.getD o 0 = 43 ∧ buffer.getD (o - 1) 0 = 32) := by
    by_cases hc : 2 ≤ t.offset + base ∧ buffer.getD (t.offset + base - 1) 0 = 43 ∧ buffer.getD (t.offset + base - 2) 0 = 32
    · refine ⟨t.offset + base - 1, t.length + 1, by rw [if_pos hc], by rw [if_pos hc], by omega, ?_⟩
      rcases Nat.lt_or_ge (t.offset + base - 1) pos with h3 | h3
      · refine .inr ⟨by omega, by omega, hc.2.1, ?_⟩
        rw [show t.offset + base - 1 - 1 = t.offset + base - 2 by omega]; exact hc.2.2
      · exact .inl h3
    · exact ⟨t.offset + base, t.length, by rw [if_neg hc], by rw [if_neg hc], by omega, .inl (by omega)⟩
  rw [← ho, ← hn]
  clear ho hn
  have hw1 : ∀ (a b c : Bool) (d : Nat), WOrd buffer stop pos (mkWord o n a b c d :: rest) := by
    intro a b c d
    simp only [WOrd, List.map_cons]
    rw [mkWord_range (by omega) (by omega)]
    refine ⟨hp, by simp only; omega, ?_⟩
    simp only [he]
    exact hr.mono (by omega)
  split
  · split
    · rename_i k b hk
      have hkn := flagLoop_le _ _ _ _ hk
      simp only [WOrd, List.cons_append, List.nil_append, List.map_cons]
      rw [mkWord_range (by omega) (by omega), mkWord_range (by omega) (by omega)]
      refine ⟨hp, by simp only; omega, .inl (by simp only; omega), by simp only; omega, ?_⟩
      simp only
      rw [show o + k + (n - k) = base + t.offset + t.length by omega]
      exact hr.mono (by omega)
    · rename_i last hk
      split
      · have heq : ((buffer.take stop).drop (o + n)).takeWhile (· == 61) = ((buffer.take stop).drop (base + t.offset + t.length)).takeWhile (· == 61) := by rw [he]
        have hle : (((buffer.take stop).drop (base + t.offset + t.length)).takeWhile (· == 61)).length ≤ stop - (base + t.offset + t.length) := by
          refine Nat.le_trans (List.takeWhile_sublist _).length_le ?_
          simp; omega
        simp only [WOrd, List.cons_append, List.nil_append, List.map_cons]
        rw [heq]
        rw [mkWord_range (by omega) (by omega)]
        refine ⟨hp, by simp only; omega, ?_⟩
        simp only
        rw [← Nat.add_assoc, he]
        exact hr
      · exact hw1 _ _ _ _
  · exact hw1 _ _ _ _

theorem allTokenWords_order {buffer : List Nat} {base stop : Nat} {depr : Bool} (hst : stop ≤ buffer.length) (hb : buffer.length < 65536)
    (ts : List Tok) : ∀ (first : Bool) (pos : Nat), Chain ((buffer.take stop).drop base) pos ts → base + pos ≤ stop →
    WOrd buffer stop (base + pos + eqs ((buffer.take stop).drop (base + pos))) (allTokenWords buffer base stop depr first ts) := by
  induction ts with
  | nil => intro _ _ _ _; exact True.intro
  | cons t ts ih =>
    intro first pos h hp
    obtain ⟨h1, h2, h3⟩ := h
    have hlen : ((buffer.take stop).drop base).length = stop - base := by simp; omega
    rw [hlen] at h2
    rw [List.drop_drop] at h1
    unfold allTokenWords
    have ih' := ih false (t.offset + t.length) h3 (by omega)
    rw [← Nat.add_assoc] at ih'
    exact tokenWords_order hst hb (by omega) (by omega) ih'

theorem commandWords_order (lookup : Lookup) (enh : Bool) (depr : List Nat → Bool) (buffer : List Nat) (lineStop : Nat) (hls : lineStop ≤ buffer.length)
    (hb : buffer.length < 65536) (r : Nat × Nat) (hr : r.1 + r.2 ≤ lineStop) :
    ∃ ws, commandWords lookup enh depr buffer lineStop {} r = some ws ∧ WOrd buffer (r.1 + r.2) r.1 ws := by
  unfold commandWords
  simp only
  obtain ⟨name, hname⟩ : ∃ name, name = ((buffer.drop r.1).take r.2).takeWhile fun c => decide (c ≠ 32 ∧ c ≠ 9) := ⟨_, rfl⟩
  rw [← hname]
  have hnl : name.length ≤ r.2 := by
    rw [hname]
    refine Nat.le_trans (List.takeWhile_sublist _).length_le ?_
    simp; omega
  generalize (name ≠ [] && aliasAllowed enh buffer r.1 && hasAlias lookup name) = isAlias
  generalize (name ≠ [] && depr name : Bool) = dp
  obtain ⟨d, hd, hdn⟩ : ∃ d, d = (if isAlias = true then name.length + (((buffer.take lineStop).drop (r.1 + name.length)).takeWhile fun c => decide (c = 32 ∨ c = 9)).length else 0) ∧
      (isAlias = true → name.length ≤ d) := ⟨_, rfl, fun h => by rw [if_pos h]; omega⟩
  rw [← hd]
  -- the text given to the tokeniser
  have halias : ∀ ws : List Word, WOrd buffer (r.1 + r.2) (if isAlias then r.1 + name.length else r.1) ws →
      WOrd buffer (r.1 + r.2) r.1 ((if isAlias = true then [mkWord r.1 name.length true true false (buffer.getD r.1 0)] else []) ++ ws) := by
    intro ws h
    cases isAlias
    · simpa using h
    · simp only [if_true] at h ⊢
      simp only [WOrd, List.cons_append, List.nil_append, List.map_cons]
      rw [mkWord_range (by omega) (by omega)]
      exact ⟨.inl (Nat.le_refl _), by simp only; omega, h⟩
  by_cases hc : r.1 + r.2 ≤ lineStop ∧ r.1 + d ≤ lineStop ∧ d ≤ r.2
  · rw [if_pos hc]
    have htext : (buffer.drop (r.1 + d)).take (r.2 - d) = (buffer.take (r.1 + r.2)).drop (r.1 + d) := by
      rw [List.take_drop, show r.1 + d + (r.2 - d) = r.1 + r.2 by omega]
    obtain ⟨ts, h1, h2⟩ := tokens_chain ((buffer.drop (r.1 + d)).take (r.2 - d)) (buffer.getD (r.1 + d + (r.2 - d)) 0)
      (.start {} ((buffer.drop (r.1 + d)).take (r.2 - d)) (!isAlias)) (List.suffix_refl _) (.inr (.inl ⟨rfl, rfl⟩))
    rw [h1]
    refine ⟨_, rfl, halias _ ?_⟩
    have h3 := h2 0 (Nat.zero_le _)
    rw [htext] at h3
    have h4 := allTokenWords_order (depr := dp) (by omega) hb ts (!isAlias) 0 h3 (by omega)
    refine h4.mono ?_
    split
    · rename_i ha; have := hdn ha; omega
    · omega
  · rw [if_neg hc]
    refine ⟨_, by simp only [List.take_zero, WordTok.start]; rw [tokens]; simp [more]; rfl, ?_⟩
    exact halias [] True.intro

theorem allWords_order {f : Nat × Nat → Option (List Word)} {buffer : List Nat} {stop : Nat}
    (hf : ∀ r : Nat × Nat, r.1 + r.2 ≤ stop → ∃ ws, f r = some ws ∧ WOrd buffer (r.1 + r.2) r.1 ws) (rs : List (Nat × Nat)) :
    ∀ pos, Ordered stop pos rs → ∃ ws, allWords f rs = some ws ∧ WOrd buffer stop pos ws := by
  induction rs with
  | nil => intro pos _; exact ⟨[], rfl, True.intro⟩
  | cons r rs ih =>
    intro pos h
    obtain ⟨h1, h2, h3⟩ := h
    obtain ⟨ws, hw1, hw2⟩ := hf r h2
    obtain ⟨vs, hv1, hv2⟩ := ih _ h3
    refine ⟨ws ++ vs, by simp [allWords, hw1, hv1], ?_⟩
    unfold WOrd
    rw [List.map_append]
    exact WordsOrdered.append (WordsOrdered.mono hw2 h1) (by omega) h2 hv2

/-- Two adjacent words at the end become one. -/
theorem merge_order {buffer : List Nat} {stop : Nat} (a b n : Nat) (rs : List (Nat × Nat)) : ∀ pos,
    WordsOrdered buffer stop pos (rs ++ [(a, b), (a + b, n)]) → WordsOrdered buffer stop pos (rs ++ [(a, b + n)]) := by
  induction rs with
  | nil =>
    rintro pos ⟨h1, h2, h3, h4, h5⟩
    simp only at h4
    exact ⟨h1, by simp only; omega, True.intro⟩
  | cons r rs ih =>
    rintro pos ⟨h1, h2, h3⟩
    exact ⟨h1, h2, ih _ h3⟩

theorem Spec.WordsOrdered.last {buffer : List Nat} {stop : Nat} (r : Nat × Nat) (rs : List (Nat × Nat)) : ∀ pos,
    WordsOrdered buffer stop pos (rs ++ [r]) → r.1 + r.2 ≤ stop := by
  induction rs with
  | nil => rintro pos ⟨h1, h2, h3⟩; exact h2
  | cons q rs ih => rintro pos ⟨h1, h2, h3⟩; exact ih _ h3

theorem mergeDots_order {buffer : List Nat} {translate stop pos : Nat} {ws : List Word} (hb : stop < 65536) (h : WOrd buffer stop pos ws) :
    WOrd buffer stop pos (mergeDots buffer translate ws) := by
  unfold mergeDots
  split
  · rename_i w cw rest hrev
    split
    · rename_i hc
      have hws : ws = rest.reverse ++ [cw, w] := by
        have := congrArg List.reverse hrev
        simpa using this
      rw [hws] at h
      unfold WOrd at *
      rw [List.map_append, List.map_cons, List.map_cons, List.map_nil] at h
      have hadj : w.offset = cw.offset + cw.length := hc.2.2.2.2.1
      have hlast := Spec.WordsOrdered.last (w.range) (rest.reverse.map Word.range ++ [cw.range]) pos (by simpa using h)
      simp only [Word.range] at hlast
      have hm : (cw.length + w.length) % 65536 = cw.length + w.length := Nat.mod_eq_of_lt (by omega)
      rw [List.reverse_cons, List.map_append, List.map_cons, List.map_nil]
      simp only [Word.range, hm, hadj] at h ⊢
      exact merge_order _ _ _ _ _ h
    · exact h
  · exact h

theorem addEnd_order {buffer : List Nat} {cursor : Nat} {first : Bool} {ws : List Word} (hb : cursor < 65536) (h : WOrd buffer cursor 0 ws) :
    WOrd buffer cursor 0 (addEnd buffer cursor true first ws) ∧
      ∃ w, (addEnd buffer cursor true first ws).getLast? = some w ∧ w.offset + w.length = cursor := by
  unfold addEnd
  simp only
  obtain ⟨e, he⟩ : ∃ e, e = mkWord cursor 0 first false false (if cursor ≠ 0 then buffer.getD (cursor - 1) 0 else 0) := ⟨_, rfl⟩
  rw [← he]
  have hr : e.range = (cursor, 0) := by rw [he]; exact mkWord_range hb (by omega) _ _ _ _
  have ho : e.offset = cursor ∧ e.length = 0 := by simpa [Word.range] using hr
  split
  · exact ⟨⟨.inl (Nat.zero_le _), by rw [hr]; simp, True.intro⟩, e, rfl, by omega⟩
  · rename_i w hw
    split
    · refine ⟨?_, e, by simp, by omega⟩
      unfold WOrd
      rw [List.map_append]
      refine Spec.WordsOrdered.append h (Nat.zero_le _) (Nat.le_refl _) ⟨.inl ?_, ?_, True.intro⟩
      · rw [hr]; simp
      · rw [hr]; simp
    · rename_i hc
      refine ⟨h, w, hw, ?_⟩
      have hws : ws = ws.dropLast ++ [w] := by
        rw [List.getLast?_eq_some_iff] at hw
        obtain ⟨ys, rfl⟩ := hw
        simp
      rw [hws] at h
      unfold WOrd at h
      rw [List.map_append] at h
      have := Spec.WordsOrdered.last _ _ _ h
      simp only [Word.range] at this
      simp only [true_and, Nat.not_lt] at hc
      omega

/-- Quotes are taken off a word. -/
theorem unquote_range (buffer : List Nat) (w : Word) (hw : w.offset + w.length < 65536) :
    (unquote buffer w).range = w.range ∨
      w.length ≠ 0 ∧ buffer.getD w.offset 0 = 34 ∧ (unquote buffer w).quoted = true ∧
      ((unquote buffer w).range = (w.offset + 1, w.length - 1) ∨
        2 ≤ w.length ∧ (unquote buffer w).range = (w.offset + 1, w.length - 2) ∧ buffer.getD (w.offset + w.length - 1) 0 = 34) := by
  unfold unquote
  split
  · exact .inl rfl
  · rename_i h0
    simp only
    split
    · rename_i h34
      right
      have hl : w.length ≠ 0 := fun h => h0 (.inl h)
      have hq : buffer.getD w.offset 0 = 34 := by
        rw [← h34, List.headD_eq_head?_getD, List.head?_take, if_neg hl, List.head?_drop]
        rw [List.getD_eq_getElem?_getD]
      have hm : (w.offset + 1) % 65536 = w.offset + 1 := Nat.mod_eq_of_lt (by omega)
      refine ⟨hl, hq, rfl, ?_⟩
      simp only [Word.range, hm]
      split
      · rename_i hc
        exact .inr ⟨by omega, rfl, hc.2.1⟩
      · exact .inl rfl
    · exact .inl rfl

theorem unquote_order {buffer : List Nat} {stop : Nat} (hb : stop < 65536) (ws : List Word) : ∀ pos pos', pos' ≤ pos → WOrd buffer stop pos ws →
    WOrd buffer stop pos' (ws.map (unquote buffer)) := by
  induction ws with
  | nil => intro _ _ _ _; exact True.intro
  | cons w ws ih =>
    rintro pos pos' hp ⟨h1, h2, h3⟩
    simp only [Word.range] at h1 h2
    have hp1 : pos' ≤ w.offset ∨ w.offset + 1 = pos' ∧ w.offset ≠ 0 ∧ buffer.getD w.offset 0 = 43 ∧ buffer.getD (w.offset - 1) 0 = 32 := by
      rcases h1 with h1 | h1
      · exact .inl (by omega)
      · rcases Nat.lt_or_ge pos' pos with h4 | h4
        · exact .inl (by omega)
        · have : pos = pos' := by omega
          exact .inr (this ▸ h1)
    simp only [WOrd, List.map_cons]
    rcases unquote_range buffer w (by omega) with hr | ⟨hl, hq, -, hr | ⟨hl2, hr, -⟩⟩
    · rw [hr]
      exact ⟨hp1, h2, ih _ _ (Nat.le_refl _) h3⟩
    · rw [hr]
      refine ⟨.inl ?_, by simp only; omega, ih _ _ (by simp only [Word.range]; omega) h3⟩
      rcases hp1 with h | h
      · simp only; omega
      · rw [h.2.2.1] at hq; simp at hq
    · rw [hr]
      refine ⟨.inl ?_, by simp only; omega, ih _ _ (by simp only [Word.range]; omega) h3⟩
      rcases hp1 with h | h
      · simp only; omega
      · rw [h.2.2.1] at hq; simp at hq

theorem Spec.Ordered.last {stop : Nat} (rs : List (Nat × Nat)) : ∀ pos, Ordered stop pos rs → rs ≠ [] →
    (rs.getLastD (0, 0)).1 + (rs.getLastD (0, 0)).2 ≤ stop := by
  induction rs with
  | nil => intro _ _ h; exact absurd rfl h
  | cons r rs ih =>
    rintro pos ⟨h1, h2, h3⟩ _
    cases rs with
    | nil => exact h2
    | cons q qs => exact ih _ h3 (by simp)

/-- Without a plus sign after a space words do not overlap. -/
theorem Spec.WordsOrdered.ordered {buffer : List Nat} {stop : Nat} (hn : ∀ i, i ≠ 0 → buffer.getD i 0 = 43 → buffer.getD (i - 1) 0 ≠ 32)
    (rs : List (Nat × Nat)) : ∀ pos, WordsOrdered buffer stop pos rs → Ordered stop pos rs := by
  induction rs with
  | nil => intro _ _; exact True.intro
  | cons r rs ih =>
    rintro pos ⟨h1, h2, h3⟩
    refine ⟨?_, h2, ih _ h3⟩
    rcases h1 with h1 | ⟨h1, h4, h5, h6⟩
    · exact h1
    · exact absurd h6 (hn _ h4 h5)

theorem no_plus {buffer : List Nat} (h : ¬ [32, 43] <:+: buffer) (i : Nat) (hi : i ≠ 0) (h1 : buffer.getD i 0 = 43) : buffer.getD (i - 1) 0 ≠ 32 := by
  intro h2
  apply h
  obtain ⟨j, rfl⟩ := Nat.exists_eq_succ_of_ne_zero hi
  have hl : j + 1 < buffer.length := by
    rcases Nat.lt_or_ge (j + 1) buffer.length with h | h
    · exact h
    · rw [List.getD_eq_getElem?_getD, List.getElem?_eq_none h] at h1; simp at h1
  rw [Nat.succ_eq_add_one, Nat.add_sub_cancel] at h2
  refine ⟨buffer.take j, buffer.drop (j + 2), ?_⟩
  have e1 : buffer.drop j = 32 :: 43 :: buffer.drop (j + 2) := by
    rw [List.drop_eq_getElem_cons (by omega), List.drop_eq_getElem_cons hl]
    rw [List.getD_eq_getElem?_getD, List.getElem?_eq_getElem (by omega)] at h2
    rw [List.getD_eq_getElem?_getD, List.getElem?_eq_getElem hl] at h1
    simp only [Option.getD_some] at h1 h2
    rw [h1, h2]
  calc buffer.take j ++ [32, 43] ++ buffer.drop (j + 2) = buffer.take j ++ buffer.drop j := by rw [e1]; simp
    _ = buffer := List.take_append_drop _ _

end Clink.Tokens
