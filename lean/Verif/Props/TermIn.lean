import Verif.Proof.TermInKeys
/-
C56: what is read when keys are pressed.
-/
namespace Clink.TermIn
open Spec Clink.Utf

variable {g : Cfg}

/-! ## Everything is read once, in order -/

/-- Whatever is called in whatever order, and whenever the records come: what was read is the beginning of what the keys
give.  If no record is left then it is all of it. -/
theorem C56_stream (hp : Plain g.keys) {rs : List Record} {bs : List Nat} (h : Gives g 0 rs bs) {ops : List Op} (hc : ∀ o ∈ ops, Calm o) :
    inputs (run g { queue := rs } ops).2 <+: bs.map special ∧
      ((run g { queue := rs } ops).1.count = 0 → (run g { queue := rs } ops).1.pending = [] → (run g { queue := rs } ops).1.queue = [] →
        inputs (run g { queue := rs } ops).2 = bs.map special) := by
  obtain ⟨bs', i, e, _⟩ := run_inv hp ops _ bs (start_inv h) (gives_bytes hp h) hc
  refine ⟨⟨_, e⟩, fun h1 h2 h3 => ?_⟩
  have := left_zero i (by unfold St.left; rw [h1, h2, h3]; rfl)
  subst this
  simpa using e

/-- Nothing is lost: if one goes on waiting and reading then everything is read in the end. -/
theorem C56_nothing_lost (hp : Plain g.keys) {rs : List Record} {bs : List Nat} (h : Gives g 0 rs bs) {ops : List Op}
    (hc : ∀ o ∈ ops, Calm o) :
    ∃ n m, inputs (run g { queue := rs } (ops ++ rounds n m)).2 = bs.map special := by
  obtain ⟨b1, i1, e1, hb1⟩ := run_inv hp ops _ bs (start_inv h) (gives_bytes hp h) hc
  refine ⟨(run g { queue := rs } ops).1.queue.length, (run g { queue := rs } ops).1.left, ?_⟩
  have hl := rounds_left hp (run g { queue := rs } ops).1.queue.length (run g { queue := rs } ops).1.left _ b1 i1 hb1 (Nat.le_refl _) (Nat.le_refl _)
  obtain ⟨b2, i2, e2, _⟩ := run_inv hp (rounds (run g { queue := rs } ops).1.queue.length (run g { queue := rs } ops).1.left) _ b1 i1 hb1 (rounds_calm _ _)
  have := left_zero i2 hl
  subst this
  rw [(run_append g ops _ _).2, inputs_append, ← e1, ← e2]
  simp

/-- How long it takes: 17 rounds for a record are enough. -/
theorem C56_live (hp : Plain g.keys) {rs : List Record} {bs : List Nat} (h : Gives g 0 rs bs) {n m : Nat} (hn : rs.length ≤ n)
    (hm : 17 * rs.length ≤ m) : inputs (run g { queue := rs } (rounds n m)).2 = bs.map special := by
  have hl := rounds_left hp n m { queue := rs } bs (start_inv h) (gives_bytes hp h) hn (by unfold St.left; simpa using hm)
  obtain ⟨b2, i2, e2, _⟩ := run_inv hp (rounds n m) _ bs (start_inv h) (gives_bytes hp h) (rounds_calm _ _)
  have := left_zero i2 hl
  subst this
  simpa using e2

/-- When `available` says that there is nothing, although all records have come, then everything has been read. -/
theorem C56_available (hp : Plain g.keys) {rs : List Record} {bs : List Nat} (h : Gives g 0 rs bs) {ops : List Op} (hc : ∀ o ∈ ops, Calm o)
    {n : Nat} (hn : (run g { queue := rs } ops).1.queue.length ≤ n) (ha : (available g (run g { queue := rs } ops).1 n).2 = false) :
    inputs (run g { queue := rs } ops).2 = bs.map special := by
  obtain ⟨b1, i1, e1, hb1⟩ := run_inv hp ops _ bs (start_inv h) (gives_bytes hp h) hc
  generalize (run g { queue := rs } ops).1 = s at *
  have i2 := available_inv i1 n
  unfold available at ha i2
  by_cases hcc : s.count > 0 ∨ s.pending ≠ []
  · rw [if_pos hcc] at ha; cases ha
  · rw [if_neg hcc] at ha i2
    have h1 : s.count = 0 := by omega
    have h2 : s.pending = [] := by
      cases hpe : s.pending with
      | nil => rfl
      | cons a b => exact absurd (Or.inr (by rw [hpe]; simp)) hcc
    obtain ⟨later, hg, hb⟩ := i1.gives
    rw [held_nil h1] at hb
    rw [h2] at hg
    subst hb
    have hpl := peekLoop_inv (s.queue.take n) s (s.queue.drop n) _ i1.ok h1 h2 (by rw [List.take_append_drop]; exact hg)
    have hp0 : (peekLoop g s (s.queue.take n) (s.queue.drop n)).pending = [] := by simpa using ha
    have hq := peekLoop_rest _ _ _ hp0
    rw [List.drop_of_length_le hn] at hq hp0 hpl
    have := left_zero hpl.1 (by unfold St.left; rw [hp0, hpl.2, hq]; rfl)
    rw [this] at e1
    simpa using e1

/-- `peek` returns what `read` is going to return, if all keys are taken as they are and the next record is not a change of
the size. -/
theorem C56_peek (ht : ∀ t, g.keys = some t → ∀ c, t.translate c = none ∧ t.bound c = true) {rs : List Record} {bs : List Nat}
    (h : Gives g 0 rs bs) {ops : List Op} (hc : ∀ o ∈ ops, Calm o)
    (hs : ∀ c, (run g { queue := rs } ops).1.pending.head? ≠ some (.size c)) :
    (peek g (run g { queue := rs } ops).1).2 = some (read g (run g { queue := rs } ops).1 false).2 := by
  have hp : Plain g.keys := fun t hk c l hl => by rw [(ht t hk c).1] at hl; cases hl
  obtain ⟨b1, i1, e1, hb1⟩ := run_inv hp ops _ bs (start_inv h) (gives_bytes hp h) hc
  exact peek_read ht i1 hs

/-! ## What keys give -/

/-- Typing a text gives the text, in UTF-8, with whatever keys are released or held in between; characters outside of the
BMP come as two keys. -/
theorem C56_text (ht : TakesText g.keys) {T : List Nat} (hT : ∀ c ∈ T, IsText c) {rs : List Record} (h : Text (T.flatMap specUtf16) rs) :
    Gives g 0 rs (T.flatMap specUtf8) := (text_gives ht h).1 T hT rfl

/-- Typed text is what is read. -/
theorem C56_typed (hp : Plain g.keys) (ht : TakesText g.keys) {T : List Nat} (hT : ∀ c ∈ T, IsText c) {rs : List Record}
    (h : Text (T.flatMap specUtf16) rs) {n m : Nat} (hn : rs.length ≤ n) (hm : 17 * rs.length ≤ m) :
    inputs (run g { queue := rs } (rounds n m)).2 = (T.flatMap specUtf8).map .byte := by
  rw [C56_live hp (C56_text ht hT h) hn hm]
  apply List.map_congr_left
  intro b hb
  obtain ⟨c, hc, hb⟩ := List.mem_flatMap.1 hb
  have := utf8_bytes (hT c hc).2.1 b hb
  unfold special
  rw [if_neg (by omega), if_neg (by omega), if_neg (by omega)]

/-- Alt with a character gives ESC and the character, unless that would be the start of a sequence (`ESC O`, `ESC [`). -/
theorem C56_alt {k : Key} (hd : k.down = true) (hch : 32 ≤ k.ch ∧ k.ch ≠ 127)
    (hvk : k.vk ≠ 8 ∧ k.vk ≠ 9 ∧ k.vk ≠ 13 ∧ k.vk ≠ 16 ∧ k.vk ≠ 17 ∧ k.vk ≠ 18 ∧ k.vk ≠ 32 ∧ k.vk ≠ 0x5B ∧ k.vk ≠ 0x5C ∧ ¬ (0x70 ≤ k.vk ∧ k.vk ≤ 0x7B))
    (hf : k.flags.ctrl = false ∧ k.flags.alt = true) (ho : g.rawEsc = true ∨ ¬ (k.ch = 79 ∧ k.flags.shift = true) ∧ ¬ (k.ch = 91 ∧ k.flags.shift = false)) :
    act g false true k = .chars [27, k.ch] := by
  rw [act_plain hd (by omega) (by omega)]
  unfold actKey
  have hsub : ((k.flags.lalt && !k.flags.ralt) && k.flags.ctrl && k.ch != 0) = false := by simp [hf.1]
  simp only [hsub, Bool.false_and, Bool.false_eq_true, if_false]
  have hnc : ¬ (k.ch > 31 ∧ k.ch ≠ 127 ∧ k.flags.ctrl = true) := fun hh => by rw [hf.1] at hh; cases hh.2.2
  rw [if_neg (by omega), if_neg (by omega), if_neg (by omega), if_neg hnc, if_neg (by omega), if_neg hvk.2.2.2.2.2.2.2.2.2]
  have h79 : ¬ (k.ch = 79 ∧ (!g.rawEsc) = true ∧ (!k.flags.ctrl) = true ∧ k.flags.shift = true ∧ k.flags.alt = true) := by
    rintro ⟨a, b, c, d, e⟩
    rcases ho with ho | ho
    · rw [ho] at b; cases b
    · exact ho.1 ⟨a, d⟩
  have h91 : ¬ (k.ch = 91 ∧ (!g.rawEsc) = true ∧ (!k.flags.ctrl) = true ∧ (!k.flags.shift) = true ∧ k.flags.alt = true) := by
    rintro ⟨a, b, c, d, e⟩
    rcases ho with ho | ho
    · rw [ho] at b; cases b
    · exact ho.2 ⟨a, by simpa using d⟩
  rw [if_neg h79, if_neg h91]
  have hs : simpleChar g k.vk k.ch k.flags = true := by
    unfold simpleChar
    simp only [hf.1, Bool.not_false, Bool.true_or]
    split
    · rfl
    split
    · rfl
    split
    · rename_i hh; omega
    split
    · rename_i hh; omega
    · rfl
  rw [if_pos ⟨by omega, hs⟩, if_pos hf.2]

/-- Ctrl with a letter gives the control character, or a sequence if the setting wants a difference between ctrl-H, ctrl-I,
ctrl-M and Backspace, Tab, Enter. -/
theorem C56_ctrl {k : Key} (hd : k.down = true) (hvk : 65 ≤ k.vk ∧ k.vk ≤ 90) (hch : k.ch = k.vk - 64)
    (hf : k.flags.ctrl = true ∧ k.flags.alt = false ∧ k.flags.shift = false) (hn : ∀ c, g.keyName k.vk k.sc = [c] → c ≠ 91 ∧ c ≠ 92 ∧ c ≠ 93) :
    act g false true k =
      if (k.vk = 72 ∧ g.differentiate) ∨ (k.vk = 73 ∧ g.differentiate) ∨ (k.vk = 77 ∧ (g.differentiate ∨ g.windows)) then
        .seq (csi [50, 55, 59, 53, 59, 55, 48 + (k.vk - 70), 126])
      else .chars [k.vk - 64] := by
  rw [act_plain hd (by omega) (by omega)]
  have hal : k.flags.lalt = false ∧ k.flags.ralt = false := by
    have := hf.2.1; unfold Flags.alt at this; simpa using this
  unfold actKey
  have hsub : ((k.flags.lalt && !k.flags.ralt) && k.flags.ctrl && k.ch != 0) = false := by simp [hal.1]
  simp only [hsub, Bool.false_and, Bool.false_eq_true, if_false]
  have hnc : ¬ (k.ch > 31 ∧ k.ch ≠ 127 ∧ k.flags.ctrl = true) := fun hh => by omega
  rw [if_neg (by omega), if_neg (by omega), if_neg (by omega), if_neg hnc,
    if_neg (fun hh => by have := hh.2.2.1; rw [hf.2.2] at this; cases this), if_neg (by omega), if_neg (by omega), if_neg (by omega)]
  have ht : translateCtrlBracket g k.vk k.sc = none := by
    unfold translateCtrlBracket
    split
    · rename_i c hc
      have := hn c hc
      rw [if_neg this.1, if_neg (by omega)]
    · rfl
  have hx : xtermModifier k.flags = 5 := by unfold xtermModifier; simp [hf]
  have hvr : vkRecognized k.vk = true := by unfold vkRecognized; simp; omega
  have hnm : namedSeq k.vk (keymodIndex k.flags) = none := by
    unfold namedSeq
    rw [if_neg (by omega), if_neg (by omega), if_neg (by omega), if_neg (by omega), if_neg (by omega), if_neg (by omega), if_neg (by omega),
      if_neg (by omega), if_neg (by omega), if_neg (by omega), if_neg (by omega)]
  have hrest : ∀ v, k.vk = v → ctrlCode g k.vk k.sc k.ch k.flags = none → (v = 72 ∨ v = 73 ∨ v = 77) →
      actRest g k.vk k.sc k.ch k.flags = .seq (csi [50, 55, 59, 53, 59, 55, 48 + (k.vk - 70), 126]) := by
    intro v hv hcc h3
    unfold actRest
    rw [hnm, hf.1]
    simp only [if_true, hcc, hvr, hx]
    have d5 : Color.digits 5 = [53] := by decide +kernel
    have d72 : Color.digits 72 = [55, 50] := by decide +kernel
    have d73 : Color.digits 73 = [55, 51] := by decide +kernel
    have d77 : Color.digits 77 = [55, 55] := by decide +kernel
    rw [d5, hv]
    rcases h3 with h3 | h3 | h3 <;> subst h3
    · rw [d72]; rfl
    · rw [d73]; rfl
    · rw [d77]; rfl
  have hcc : ∀ (_ : (k.vk = 72 ∨ k.vk = 73) ∧ g.differentiate = true ∨ k.vk = 77 ∧ (g.differentiate = true ∨ g.windows = true)),
      ctrlCode g k.vk k.sc k.ch k.flags = none := by
    intro hh
    unfold ctrlCode
    rw [hf.2.2]
    simp only [Bool.not_false, Bool.true_or, if_true, ht]
    rw [if_pos hvk]
    rcases hh with hh | hh
    · rw [if_pos hh]
    · rw [if_neg (by omega), if_pos hh]
  have h0 : k.ch ≠ 0 := by omega
  unfold simpleChar
  simp only [hf.1, hf.2.1, hf.2.2, Bool.not_true, Bool.false_or, Bool.not_false, Bool.or_true, Bool.false_eq_true, if_false]
  by_cases h7 : k.vk = 72 ∨ k.vk = 73
  · rw [if_pos h7]
    by_cases hdf : g.differentiate = true
    · rw [if_neg (by simp [hdf]), if_pos (by rcases h7 with h | h <;> simp [h, hdf])]
      exact hrest k.vk rfl (hcc (Or.inl ⟨h7, hdf⟩)) (by omega)
    · rw [if_pos ⟨h0, by simpa using hdf⟩, if_neg (by
        rintro (h | h | h)
        · exact hdf h.2
        · exact hdf h.2
        · omega), hch]
  · rw [if_neg h7]
    by_cases h77 : k.vk = 77
    · rw [if_pos h77]
      by_cases hdf : g.differentiate = true ∨ g.windows = true
      · rw [if_neg (by rcases hdf with h | h <;> simp [h]), if_pos (Or.inr (Or.inr ⟨h77, hdf⟩))]
        exact hrest k.vk rfl (hcc (Or.inr ⟨h77, hdf⟩)) (by omega)
      · rw [if_pos ⟨h0, by simpa [not_or] using hdf⟩, if_neg (by
          rintro (h | h | h)
          · omega
          · omega
          · exact hdf h.2), hch]
    · rw [if_neg h77, if_neg (show ¬ (k.ch = 27 ∧ k.vk ≠ 27) by omega), if_neg (show ¬ (k.vk = 13 ∨ k.vk = 8) by omega), if_pos ⟨h0, rfl⟩, if_neg (by rintro (h | h | h) <;> omega), hch]

/-- Cursor keys, Home, End, Insert, Delete, Page up, Page down and F1 to F12 give the sequences of xterm (with ESC in front
for alt and a function key), except for alt-F4 if that is wanted. -/
theorem C56_keys {k : Key} (hd : k.down = true) (hc : k.ch = 0) {q : List Nat} (hq : keySeq k.vk k.flags = some q) :
    act g false true k =
      if k.vk = 0x73 ∧ k.flags.alt = true ∧ k.flags.ctrl = false ∧ k.flags.shift = false ∧ g.altF4 = true then .exit else .seq q := by
  obtain ⟨d, vk, sc, ch, ⟨ra, la, rc, lc, sh, ot⟩⟩ := k
  rcases keySeq_vk hq with hv | hv
  · have h1 := nav_eq vk hv ra la rc lc sh ot
    have hr : 33 ≤ vk ∧ vk ≤ 46 := by
      have : ∀ v ∈ navList, 33 ≤ v ∧ v ≤ 46 := by decide
      exact this vk hv
    rw [act_named hd hc hr (h1.trans hq), if_neg (by have := hr.2; intro hh; have : vk = 0x73 := hh.1; omega)]
  · have h1 := fn_eq vk hv ra la rc lc sh ot
    have hr : 0x70 ≤ vk ∧ vk ≤ 0x7B := by
      have : ∀ v ∈ fnList, 0x70 ≤ v ∧ v ≤ 0x7B := by decide
      exact this vk hv
    rw [act_fn hd hc hr]
    have hk : ∀ ra la rc lc sh ot : Bool, (keymodIndex ⟨ra, la, rc, lc, sh, ot⟩ = 4) ↔
        ((⟨ra, la, rc, lc, sh, ot⟩ : Flags).alt = true ∧ (⟨ra, la, rc, lc, sh, ot⟩ : Flags).ctrl = false ∧ sh = false) := by decide +kernel
    have := hk ra la rc lc sh ot
    by_cases hx : keymodIndex ⟨ra, la, rc, lc, sh, ot⟩ = 4 ∧ vk = 0x73 ∧ g.altF4 = true
    · rw [if_pos hx, if_pos ⟨hx.2.1, (this.1 hx.1).1, (this.1 hx.1).2.1, (this.1 hx.1).2.2, hx.2.2⟩]
    · rw [if_neg hx, if_neg (fun hh => hx ⟨this.2 ⟨hh.2.1, hh.2.2.1, hh.2.2.2.1⟩, hh.1, hh.2.2.2.2⟩)]
      injection h1.trans hq with e
      rw [e]

/-- These sequences can be told from each other: none is the beginning of another one. -/
theorem C56_distinct {k l : Key} {p q : List Nat} (hp : keySeq k.vk k.flags = some p) (hq : keySeq l.vk l.flags = some q)
    (h : p <+: q) : k.vk = l.vk ∧ k.flags.shift = l.flags.shift ∧ k.flags.ctrl = l.flags.ctrl ∧ k.flags.alt = l.flags.alt := by
  have three : ∀ (v : Nat) (f : Flags) (r : List Nat), keySeq v f = some r → v ∈ navList ++ fnList ∧
      keySeq v { shift := f.shift, lctrl := f.ctrl, lalt := f.alt } = some r := by
    intro v f r hr
    have hv : v ∈ navList ++ fnList := List.mem_append.2 (keySeq_vk hr)
    obtain ⟨ra, la, rc, lc, sh, ot⟩ := f
    have e := keySeq_three v hv ra la rc lc sh ot
    refine ⟨hv, ?_⟩
    have e2 := e.symm.trans hr
    have hx : ({ shift := sh, lctrl := rc || lc, lalt := ra || la } : Flags) =
        { shift := sh, lctrl := (⟨ra, la, rc, lc, sh, ot⟩ : Flags).ctrl, lalt := (⟨ra, la, rc, lc, sh, ot⟩ : Flags).alt } := by
      simp [Flags.ctrl, Flags.alt, Bool.or_comm]
    rw [hx] at e2
    exact e2
  obtain ⟨hv, e1⟩ := three _ _ _ hp
  obtain ⟨hw, e2⟩ := three _ _ _ hq
  have := List.all_eq_true.1 (List.all_eq_true.1 apart_all _ hv) _ hw
  have := All8.all this k.flags.shift k.flags.ctrl k.flags.alt
  have := All8.all this l.flags.shift l.flags.ctrl l.flags.alt
  unfold apart at this
  rw [e1, e2] at this
  have hpre : p.isPrefixOf q = true := List.isPrefixOf_iff_prefix.2 h
  simp [hpre] at this
  exact ⟨this.1.1.1, this.1.1.2, this.1.2, this.2⟩

/-- The Esc key gives ESC, or a sequence of its own so that it cannot be taken for the beginning of another one. -/
theorem C56_esc {k : Key} (hd : k.down = true) (hk : k.vk = 27 ∧ k.ch = 27) (hf : k.flags.ctrl = false ∧ k.flags.alt = false) :
    act g false true k = if g.rawEsc then .chars [27] else .seq [27, 91, 50, 55, 59, 50, 55, 126] := by
  obtain ⟨d, vk, sc, ch, ⟨ra, la, rc, lc, sh, ot⟩⟩ := k
  obtain ⟨h1, h2⟩ := hk
  obtain ⟨h3, h4⟩ := hf
  simp only [Flags.ctrl, Flags.alt, Bool.or_eq_false_iff] at h1 h2 h3 h4 hd
  obtain ⟨rfl, rfl⟩ := h3
  obtain ⟨rfl, rfl⟩ := h4
  subst h1 h2 hd
  cases hr : g.rawEsc <;> simp [act, hr, csi, actKey, simpleChar, Flags.ctrl, Flags.alt]

theorem editing_act {k : Key} (hd : k.down = true) (hc : editingChar k.vk k.flags k.ch) (hf : ¬ (k.flags.ctrl = true ∧ k.flags.alt = true)) {q : List Nat}
    (hq : editingSeq k.vk k.flags = some q) : (act g false true k = .seq q ∨ act g false true k = .chars q) ∧ ∀ b ∈ q, b < 128 := by
  obtain ⟨d, vk, sc, ch, ⟨ra, la, rc, lc, sh, ot⟩⟩ := k
  simp only at hd hc hf hq
  subst hd
  rcases hc with ⟨rfl, rfl⟩ | ⟨rfl, rfl | rfl⟩ | ⟨rfl, rfl⟩ | ⟨rfl, rfl | rfl⟩ <;>
    simp only [editingSeq] at hq <;> revert hf hq <;> cases ra <;> cases la <;> cases rc <;> cases lc <;> cases sh <;>
    simp [Flags.ctrl, Flags.alt, otherSeq, xterm] <;>
    (intro hq; subst hq) <;>
    simp [act, actKey, actRest, namedSeq, kbks, kret, ktab, kspc, mok, modDigit, csi, simpleChar, keymodIndex, Flags.ctrl, Flags.alt, Flags.any]

/-- Backspace, Tab, Enter and Space give what terminals send for them, with modifiers a sequence of their own. -/
theorem C56_editing {k : Key} (hd : k.down = true) (hc : editingChar k.vk k.flags k.ch) (hf : ¬ (k.flags.ctrl = true ∧ k.flags.alt = true)) {q : List Nat}
    (hq : editingSeq k.vk k.flags = some q) : Gives g 0 [.key k] (heard g.keys q) := by
  obtain ⟨h | h, hb⟩ := editing_act (g := g) hd hc hf hq
  · have := Gives.seq h .nil
    rwa [List.append_nil] at this
  · have hu : ∀ c ∈ q, Spec.Unit c := fun c hcc => by have := hb c hcc; exact ⟨by omega, by omega⟩
    have e : q.flatMap specUtf8 = q := by
      clear h hu hq
      induction q with
      | nil => rfl
      | cons a q ih =>
        have := hb a (by simp)
        rw [List.flatMap_cons, ih fun b hbb => hb b (by simp [hbb])]
        simp [specUtf8, this]
    have := Gives.chars h hu .nil
    rwa [List.append_nil, e] at this

/-! ## What goes wrong -/

/-- Somebody who takes all keys and the mouse. -/
def eager : Tester := ⟨fun _ => true, fun _ => none, fun _ => true⟩

/-- Asking whether there is input loses a click. -/
theorem C56_click_violated : ∃ (t : Tester) (r : Record),
    inputs (run { keys := some t } { queue := [r] } (.available 1 :: rounds 1 100)).2 = [] ∧
    inputs (run { keys := some t } { queue := [r] } (rounds 1 100)).2 = ([27, 91, 36, 51, 59, 52, 76].map .byte) :=
  ⟨eager, .mouse { x := 3, y := 4, left := true }, by decide +kernel⟩

/-- If a callback asks whether there is input while `select` waits, then the key that it sees is read after the next one. -/
theorem C56_order_violated : ∃ rs : List Record, Text [97, 98] rs ∧
    inputs (run {} { queue := rs } (.select [1] 1 :: .read false :: rounds 1 100)).2 = [.byte 98, .byte 97] :=
  ⟨[.key { vk := 65, ch := 97 }, .key { vk := 66, ch := 98 }],
    .key ⟨rfl, rfl, by decide, by decide, by decide, by decide⟩ (.key ⟨rfl, rfl, by decide, by decide, by decide, by decide⟩ .nil),
    by decide +kernel⟩

/-- `peek` returns an uninitialised value if the next record is a change of the size. -/
theorem C56_peek_violated : ∃ (rs : List Record) (ops : List Op), (∀ o ∈ ops, Calm o) ∧ Gives {} 0 rs [] ∧
    (peek {} (run {} { queue := rs } ops).1).2 = none :=
  ⟨[.size true], [.available 1], by simp [Calm], .quiet trivial .nil, by decide +kernel⟩

/-- `available` and `peek` promise a key that `read` does not return, if it is not bound. -/
theorem C56_promise_violated : ∃ (t : Tester) (r : Record) (s : St), (available { keys := some t } { queue := [r] } 1) = (s, true) ∧
    (peek { keys := some t } s).2 = some (.byte 27) ∧ (read { keys := some t } s false).2 = .none :=
  ⟨⟨fun _ => false, fun _ => none, fun _ => false⟩, .key { vk := 0x70, ch := 0 }, _, rfl, by decide +kernel⟩

/-- What takes the place of a key comes out wrong if it is not ASCII. -/
theorem C56_translate_violated : ∃ (t : Tester) (r : Record), t.translate [97] = some (specUtf8 0xE9) ∧ Types { vk := 65, ch := 97 } 97 ∧
    r = .key { vk := 65, ch := 97 } ∧
    inputs (run { keys := some t } { queue := [r] } (rounds 1 100)).2 ≠ (specUtf8 0xE9).map .byte :=
  ⟨⟨fun _ => true, fun c => if c = [97] then some (specUtf8 0xE9) else none, fun _ => false⟩, _, by decide +kernel,
    ⟨rfl, rfl, by decide, by decide, by decide, by decide⟩, rfl, by decide +kernel⟩

/-! ## Examples -/

/-- `a😀` typed on a keyboard with shift going down in between and every key released. -/
def exText : List Record :=
  [.key { vk := 65, ch := 97 }, .key { down := false, vk := 65, ch := 97 }, .key { vk := 0xE7, ch := 0xD83D },
    .key { vk := 16, ch := 0, flags := { shift := true } }, .key { vk := 0xE7, ch := 0xDE00 }]

example : Text ([97, 0x1F600].flatMap specUtf16) exText ∧ (∀ c ∈ [97, 0x1F600], IsText c) ∧ TakesText ({} : Cfg).keys ∧ Plain ({} : Cfg).keys :=
  ⟨.key ⟨rfl, rfl, by decide, by decide, by decide, by decide⟩ (.noise (.up rfl (by decide))
      (.key ⟨rfl, rfl, by decide, by decide, by decide, by decide⟩ (.noise (.modifier (by decide))
        (.key ⟨rfl, rfl, by decide, by decide, by decide, by decide⟩ .nil)))),
    by decide, fun _ h => (by cases h), fun _ h => (by cases h)⟩
example : inputs (run {} { queue := exText } (rounds 5 85)).2 = [.byte 97, .byte 240, .byte 159, .byte 152, .byte 128] := by decide +kernel
/-- With calls in another order: the first half of the pair is looked at only. -/
example : inputs (run {} { queue := exText } ([.available 1, .peek, .read false, .available 2, .select [] 0, .available 2, .peek, .select [] 3,
    .read true] ++ rounds 5 85)).2 = [.byte 97, .byte 240, .byte 159, .byte 152, .byte 128] := by decide +kernel
/-- With keys that are dropped and replaced. -/
example : Plain (some ⟨fun c => c != [98], fun c => if c = [27, 91, 65] then some [16] else none, fun _ => false⟩) := by
  intro k hk c l hl
  cases hk
  dsimp only at hl
  split at hl
  · injection hl with hl; subst hl; decide
  · cases hl
example : (available {} (run {} { queue := exText } (rounds 5 85)).1 0).2 = false ∧ (run {} { queue := exText } (rounds 5 85)).1.queue = [] := by
  decide +kernel
/-- `peek` after the first half of a pair. -/
example : (peek {} (run {} { queue := exText } [.select [] 2, .read false, .available 9]).1).2 = some (.byte 240) := by decide +kernel
/-- AltGr with Q gives `@` on German keyboards. -/
example : Types { vk := 81, ch := 64, flags := { ralt := true, lctrl := true } } 64 := ⟨rfl, rfl, by decide, by decide, by decide, by decide⟩
example : act {} false true { vk := 88, ch := 120, flags := { lalt := true } } = .chars [27, 120] := by decide +kernel
example : act {} false true { vk := 77, ch := 13, flags := { lctrl := true } } = .chars [13] ∧
    act { windows := true } false true { vk := 77, ch := 13, flags := { lctrl := true } } = .seq [27, 91, 50, 55, 59, 53, 59, 55, 55, 126] := by
  decide +kernel
example : keySeq 38 { lctrl := true } = some [27, 91, 49, 59, 53, 65] ∧ keySeq 0x73 { lalt := true } = some [27, 27, 79, 83] ∧
    keySeq 0x7B { shift := true } = some [27, 91, 50, 52, 59, 50, 126] := by decide +kernel
example : editingSeq 8 { lctrl := true, lalt := true } = some [27, 127] ∧ editingChar 8 { lctrl := true } 127 ∧
    editingSeq 13 { shift := true } = some [27, 91, 50, 55, 59, 50, 59, 49, 51, 126] := by
  refine ⟨by decide, Or.inl ⟨rfl, rfl⟩, by decide⟩
example : act {} false true { vk := 0x73, ch := 0, flags := { lalt := true } } = .exit := by decide +kernel

end Clink.TermIn
