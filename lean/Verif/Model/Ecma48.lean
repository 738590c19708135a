import Verif.Model.Doskey

/-!
Model of the iterator over terminal output.
Sources: clink/terminal/src/ecma48_iter.cpp, clink/terminal/include/terminal/ecma48_iter.h.

Text is a list of bytes; an iterator is the list of bytes from its pointer to its end (as in `Model.Doskey`).  A text
without a length ends at NUL, which reading stops at in any case.  Asserts are not modelled.
-/

namespace Clink.Ecma48

open Utf (more)
open Doskey (peek next next_lt next_le between)

/-- `ecma48_state_enum`, terminal/include/terminal/ecma48_iter.h:16-26. -/
inductive St | unknown | char | esc | escSt | csiP | csiF | cmdStr | charStr
  deriving DecidableEq, Repr

/-- `ecma48_code::type`, terminal/include/terminal/ecma48_iter.h:32-39. -/
inductive Typ | chars | c0 | c1 | icf
  deriving DecidableEq, Repr

/-- `ecma48_state` with the fields `m_type` and `m_code` of its code, terminal/include/terminal/ecma48_iter.h:130-142.
The type is none as long as it is not initialised. -/
structure State where
  st : St := .unknown
  buffer : List Nat := []
  clear : Bool := true
  typ : Option Typ := none
  code : Nat := 0
  deriving DecidableEq, Repr

/-- `ecma48_state::reset`, terminal/src/ecma48_iter.cpp:89-93. -/
def State.reset (s : State) : State := { s with st := .unknown, clear := true }

/-- `ecma48_iter` with the pointer `m_code.m_str`, `start`, while it points into the text. -/
structure Iter where
  s : State
  iter : List Nat
  start : List Nat
  nested : Nat
  deriving DecidableEq, Repr

def Iter.adv (i : Iter) : Iter := { i with iter := next i.iter }
def Iter.to (i : Iter) (st : St) : Iter := { i with s := { i.s with st := st } }
def Iter.kind (i : Iter) (t : Typ) (c : Nat) : Iter := { i with s := { i.s with typ := some t, code := c } }

/-- "Reset" in `next_cmd_str` and `next_csi_f`, terminal/src/ecma48_iter.cpp:435-439, 456-460. -/
def Iter.abort (i : Iter) : Iter := { i with start := i.iter, s := i.s.reset }

/-- `next_c1`, terminal/src/ecma48_iter.cpp:351-375; `c` is the code. -/
def nextC1 (i : Iter) (c : Nat) : Bool × Iter :=
  let c := c % 32 + 64
  let i := i.kind .c1 c
  if c = 0x50 ∨ c = 0x5d ∨ c = 0x5e ∨ c = 0x5f then (false, i.to .cmdStr)
  else if c = 0x5b then (false, i.to .csiP)
  else if c = 0x58 then (false, i.to .charStr)
  else (true, i)

/-- `next_char`, terminal/src/ecma48_iter.cpp:378-388. -/
def nextChar (i : Iter) (c : Nat) : Bool × Iter :=
  if c ≤ 0x1f then (true, { i with s := { i.s with typ := some .chars } }) else (false, i.adv)

/-- `next_char_str`, terminal/src/ecma48_iter.cpp:391-402. -/
def nextCharStr (i : Iter) (c : Nat) : Bool × Iter :=
  if c = 0x1b then (false, i.adv.to .escSt) else (decide (c = 0x9c), i.adv)

/-- `next_cmd_str`, terminal/src/ecma48_iter.cpp:405-440. -/
def nextCmdStr (i : Iter) (c : Nat) : Bool × Iter :=
  if c = 0x1b then
    let i := i.adv
    let d := peek i.iter
    if d = 0x5d then (false, { i with nested := i.nested + 1 })
    else if d = 0x5c ∧ i.nested > 0 then (false, { i with nested := i.nested - 1 })
    else (false, i.to .escSt)
  else if c = 0x9c ∨ c = 0x07 then
    if c = 0x07 ∧ i.nested > 0 then (false, { i.adv with nested := i.nested - 1 }) else (true, i.adv)
  else if (0x08 ≤ c ∧ c ≤ 0x0d) ∨ c ≥ 0x20 then (false, i.adv)
  else (false, i.abort)

/-- `next_csi_f`, terminal/src/ecma48_iter.cpp:443-461. -/
def nextCsiF (i : Iter) (c : Nat) : Bool × Iter :=
  if 0x20 ≤ c ∧ c ≤ 0x2f then (false, i.adv)
  else if 0x40 ≤ c ∧ c ≤ 0x7e then (true, i.adv)
  else (false, i.abort)

/-- `next_csi_p`, terminal/src/ecma48_iter.cpp:464-474. -/
def nextCsiP (i : Iter) (c : Nat) : Bool × Iter :=
  if 0x30 ≤ c ∧ c ≤ 0x3f then (false, i.adv) else nextCsiF (i.to .csiF) c

/-- `next_esc`, terminal/src/ecma48_iter.cpp:477-496. -/
def nextEsc (i : Iter) (c : Nat) : Bool × Iter :=
  if 0x40 ≤ c ∧ c ≤ 0x5f then nextC1 i.adv c
  else if 0x60 ≤ c ∧ c ≤ 0x7f then (true, i.adv.kind .icf c)
  else (false, i.adv.to .char)

/-- `next_esc_st`, terminal/src/ecma48_iter.cpp:499-513. -/
def nextEscSt (i : Iter) (c : Nat) : Bool × Iter :=
  if c = 0x5c then (true, i.adv) else (false, { i.abort with nested := 0 })

/-- `next_unknown`, terminal/src/ecma48_iter.cpp:516-541. -/
def nextUnknown (i : Iter) (c : Nat) : Bool × Iter :=
  if c = 0x1b then (false, i.adv.to .esc)
  else if c ≤ 0x1f then (true, i.adv.kind .c0 c)
  else if 0x80 ≤ c ∧ c ≤ 0x9f then nextC1 i.adv c
  else (false, { i.adv with s := { i.s with typ := some .chars, st := .char } })

/-- The `switch` in `ecma48_iter::next`, terminal/src/ecma48_iter.cpp:306-316. -/
def step (i : Iter) (c : Nat) : Bool × Iter :=
  match i.s.st with
  | .char => nextChar i c
  | .charStr => nextCharStr i c
  | .cmdStr => nextCmdStr i c
  | .csiF => nextCsiF i c
  | .csiP => nextCsiP i c
  | .esc => nextEsc i c
  | .escSt => nextEscSt i c
  | .unknown => nextUnknown i c

/-- The longest text that `str<64>` can hold, see `Model.Str`: when the text grows by a few bytes
at a time, it fills the largest capacity below 65536 that is a multiple of 64.  (A malformed "character" can have any
length, and then the buffer can be full earlier.  The difference matters only for texts above the limit, about which no
theorem says anything.) -/
def bufferLimit : Nat := 65471

/-- The copy into the buffer, terminal/src/ecma48_iter.cpp:318-328: the iterator and `copy`. -/
def keep (copy : List Nat) (i : Iter) : Iter × List Nat :=
  if i.s.st ≠ .char then
    let old := if i.s.clear then [] else i.s.buffer
    ({ i with s := { i.s with clear := false, buffer := (old ++ between copy i.iter).take bufferLimit } }, i.iter)
  else (i, copy)

theorem keep_iter (copy : List Nat) (i : Iter) : (keep copy i).1.iter = i.iter := by unfold keep; split <;> rfl
theorem keep_st (copy : List Nat) (i : Iter) : (keep copy i).1.s.st = i.s.st := by unfold keep; split <;> rfl

theorem more_of_peek {l : List Nat} (h : peek l ≠ 0) : more l = true := by
  cases l with
  | nil => exact absurd rfl h
  | cons c r =>
    by_cases hc : c = 0
    · subst hc; exact absurd rfl h
    · simp [more, hc]

/-- A step that does not end the code reads something, or goes back to the unknown state. -/
theorem step_progress {i : Iter} {c : Nat} (hp : peek i.iter ≠ 0) (h : (step i c).1 = false) :
    (step i c).2.iter.length < i.iter.length ∨
    (step i c).2.iter = i.iter ∧ (step i c).2.s.st = .unknown ∧ i.s.st ≠ .unknown := by
  have hl : (next i.iter).length < i.iter.length := next_lt (more_of_peek hp)
  have hc1 : ∀ j c, (nextC1 j c).2.iter = j.iter := by
    intro j c; unfold nextC1; simp only; repeat' split
    all_goals rfl
  unfold step at *
  cases hs : i.s.st <;> simp only [hs] at h ⊢
  · left
    unfold nextUnknown; repeat' split
    · exact hl
    · exact hl
    · rw [hc1]; exact hl
    · exact hl
  · left
    unfold nextChar at *
    split at h
    · simp at h
    · rename_i hh; simp only [hh, if_false]; exact hl
  · left
    unfold nextEsc; repeat' split
    · rw [hc1]; exact hl
    · exact hl
    · exact hl
  · unfold nextEscSt; repeat' split
    · exact .inl hl
    · exact .inr ⟨rfl, rfl, by simp⟩
  · unfold nextCsiP nextCsiF; repeat' split
    · exact .inl hl
    · exact .inl hl
    · exact .inl hl
    · exact .inr ⟨rfl, rfl, by simp⟩
  · unfold nextCsiF; repeat' split
    · exact .inl hl
    · exact .inl hl
    · exact .inr ⟨rfl, rfl, by simp⟩
  · unfold nextCmdStr; simp only; repeat' split
    all_goals first | exact .inl hl | exact .inr ⟨rfl, rfl, by simp⟩
  · left
    unfold nextCharStr; repeat' split
    · exact hl
    · exact hl

/-- The loop in `ecma48_iter::next`, terminal/src/ecma48_iter.cpp:290-332: whether there is a code, and the
iterator. -/
def loop (copy : List Nat) (i : Iter) : Bool × Iter :=
  if hp : peek i.iter = 0 then (decide (i.s.st = .char), i)
  else
    let r := step i (peek i.iter)
    let k := keep copy r.2
    if hd : r.1 = true then (true, k.1) else loop k.2 k.1
termination_by 2 * i.iter.length + if i.s.st = .unknown then 0 else 1
decreasing_by
  rw [keep_iter, keep_st]
  rcases step_progress hp (by simpa using hd) with h | ⟨h1, h2, h3⟩
  · have : (step i (peek i.iter)).2.iter.length < i.iter.length := h
    split <;> split <;> omega
  · rw [h1, h2, if_pos rfl, if_neg h3]; omega

/-- A code as its reader sees it.  The length has 16 bits. -/
structure Piece where
  text : List Nat
  typ : Option Typ
  code : Nat
  deriving DecidableEq, Repr

/-- `ecma48_iter::next`, terminal/src/ecma48_iter.cpp:284-348: the code, if its length is not 0, the state and the
iterator.  The count of nested strings is cleared with every code that is returned. -/
def nextCode (s : State) (nested : Nat) (l : List Nat) : Option Piece × State × Nat × List Nat :=
  let r := loop l ⟨s, l, l, nested⟩
  let s := r.2.s
  if r.1 then
    let text := if s.st ≠ .char then s.buffer else r.2.start.take ((r.2.start.length - r.2.iter.length) % 65536)
    (if text = [] then none else some ⟨text, s.typ, s.code⟩, s.reset, 0, r.2.iter)
  else (none, s, r.2.nested, r.2.iter)

theorem loop_len (copy : List Nat) (i : Iter) : (loop copy i).2.iter.length ≤ i.iter.length := by
  fun_induction loop copy i with
  | case1 => exact Nat.le_refl _
  | case2 copy i hp r k hd =>
    show (keep copy r.2).1.iter.length ≤ _
    rw [keep_iter]
    show (step i (peek i.iter)).2.iter.length ≤ _
    have hl : (next i.iter).length ≤ i.iter.length := next_le _
    have hc1 : ∀ j c, (nextC1 j c).2.iter = j.iter := by
      intro j c; unfold nextC1; simp only; repeat' split
      all_goals rfl
    unfold step nextUnknown nextChar nextEsc nextEscSt nextCsiP nextCsiF nextCmdStr nextCharStr
    simp only
    repeat' split
    all_goals first | exact hl | exact Nat.le_refl _ | (rw [hc1]; exact hl)
  | case3 copy i hp r k hd ih =>
    refine Nat.le_trans ih ?_
    rw [keep_iter]
    rcases step_progress hp (by simpa using hd) with h | ⟨h1, -, -⟩
    · exact Nat.le_of_lt h
    · exact Nat.le_of_eq (by rw [h1])

/-- `while (code = iter.next())`: the codes and the state.  None if it does not terminate. -/
def walkFrom (s : State) (nested : Nat) (l : List Nat) : Option (List Piece × State) :=
  match nextCode s nested l with
  | (none, s', _, _) => some ([], s')
  | (some p, s', n', l') => if l'.length < l.length then (walkFrom s' n' l').map fun r => (p :: r.1, r.2) else none
termination_by l.length

/-- A new iterator on a text. -/
def walk (s : State) (l : List Nat) : Option (List Piece × State) := walkFrom s 0 l

/-- Several texts after each other with the same state, as in `ecma48_terminal_out::write`,
terminal/src/ecma48_terminal_out.cpp:266-267. -/
def walkAll (s : State) : List (List Nat) → Option (List Piece × State)
  | [] => some ([], s)
  | l :: ls => (walk s l).bind fun r => (walkAll r.2 ls).map fun q => (r.1 ++ q.1, q.2)

end Clink.Ecma48
