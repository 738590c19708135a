import Verif.Model.TermReq
import Verif.Spec.TermReq
import Verif.Proof.Ecma48

/-!
Finding the answer in what was read.
-/

namespace Clink.Ecma48
open Clink.Utf (IsText specUtf8)
open Clink.Doskey.Spec (flat)
open Clink.Doskey (peek next)
open Clink.Ecma48.Spec (Param Middle Final Printable)

theorem utf8_ascii {c : Nat} (h : c < 128) : specUtf8 c = [c] := by simp [specUtf8, h]
theorem ascii_text {c : Nat} (h : c < 128) (h0 : c ≠ 0) : IsText c := ⟨by omega, by omega, by omega⟩

theorem flat_ascii {w : List Nat} (h : ∀ c ∈ w, c < 128) : flat w = w := by
  induction w with
  | nil => rfl
  | cons c w ih =>
    show specUtf8 c ++ flat w = _
    rw [utf8_ascii (h c (by simp)), ih (fun x hx => h x (by simp [hx]))]; rfl

theorem flat_cat (a b : List Nat) : flat (a ++ b) = flat a ++ flat b := by simp [flat]

theorem peek_ascii {c : Nat} {m : List Nat} (h : c < 128) (h0 : c ≠ 0) : peek (c :: m) = c := by
  have := Doskey.peek_flat (ascii_text h h0) m
  rw [utf8_ascii h] at this; exact this
theorem next_ascii {c : Nat} {m : List Nat} (h : c < 128) (h0 : c ≠ 0) : next (c :: m) = m := by
  have := Doskey.next_flat (ascii_text h h0) m
  rw [utf8_ascii h] at this; exact this

/-- The text of the code so far. -/
def cur (s : State) : List Nat := if s.clear then [] else s.buffer

/-- One more byte of a code. -/
def Iter.more (i' : Iter) (b : List Nat) : Iter := { i' with s := { i'.s with clear := false, buffer := b } }

theorem keep_one {i i' : Iter} {c : Nat} {m : List Nat} (hl : i.iter = c :: m) (hi : i'.iter = m) (hb : i'.s.buffer = i.s.buffer)
    (hcl : i'.s.clear = i.s.clear) (hne : i'.s.st ≠ .char) (hlim : (cur i.s).length + 1 ≤ bufferLimit) :
    keep i.iter i' = (Iter.more i' (cur i.s ++ [c]), m) := by
  unfold keep
  rw [if_pos hne, hb, hcl, hl, hi]
  have : Doskey.between (c :: m) m = [c] := between_mid [c] m
  rw [this]
  have h2 : (if i.s.clear = true then [] else i.s.buffer) = cur i.s := rfl
  simp only [h2]
  rw [List.take_of_length_le (by simp; omega), ← hi]
  rfl

theorem go_one {i i' : Iter} {c : Nat} {m : List Nat} (hc : c < 128) (h0 : c ≠ 0) (hl : i.iter = c :: m) (hs : step i c = (false, i'))
    (hi : i'.iter = m) (hb : i'.s.buffer = i.s.buffer) (hcl : i'.s.clear = i.s.clear) (hne : i'.s.st ≠ .char)
    (hlim : (cur i.s).length + 1 ≤ bufferLimit) : loop i.iter i = loop m (Iter.more i' (cur i.s ++ [c])) := by
  rw [loop_go (by rw [hl]; exact peek_ascii hc h0) h0 hs, keep_one hl hi hb hcl hne hlim]

theorem done_one {i i' : Iter} {c : Nat} {m : List Nat} (hc : c < 128) (h0 : c ≠ 0) (hl : i.iter = c :: m) (hs : step i c = (true, i'))
    (hi : i'.iter = m) (hb : i'.s.buffer = i.s.buffer) (hcl : i'.s.clear = i.s.clear) (hne : i'.s.st ≠ .char)
    (hlim : (cur i.s).length + 1 ≤ bufferLimit) : loop i.iter i = (true, Iter.more i' (cur i.s ++ [c])) := by
  rw [loop_done (by rw [hl]; exact peek_ascii hc h0) h0 hs, keep_one hl hi hb hcl hne hlim]

/-- Nothing of a code was read. -/
structure Ready (s : State) : Prop where
  st : s.st = .unknown
  clear : s.clear = true

theorem Ready.reset (s : State) : Ready s.reset := ⟨rfl, rfl⟩
theorem Ready.cur {s : State} (h : Ready s) : cur s = [] := by unfold Ecma48.cur; rw [h.clear]; rfl

/-! ## Codes -/

/-- A code was read, `m` is left. -/
structure Done (r : Bool × Iter) (w : List Nat) (t : Typ) (m : List Nat) : Prop where
  yes : r.1 = true
  iter : r.2.iter = m
  st : r.2.s.st ≠ .char
  buffer : r.2.s.buffer = w
  typ : r.2.s.typ = some t

/-- The iterator is inside a code, of which `b` was read. -/
structure At (j : Iter) (st : St) (b m : List Nat) : Prop where
  iter : j.iter = m
  st : j.s.st = st
  buffer : j.s.buffer = b
  clear : j.s.clear = false

theorem At.cur {j : Iter} {st : St} {b m : List Nat} (h : At j st b m) : cur j.s = b := by
  unfold Ecma48.cur; rw [h.clear]; exact h.buffer

theorem Done.code {s : State} {l w m : List Nat} {t : Typ} (h : Done (loop l ⟨s, l, l, 0⟩) w t m) (hw : w ≠ []) :
    ∃ s' x, Ready s' ∧ nextCode s 0 l = (some ⟨w, some t, x⟩, s', 0, m) := by
  refine ⟨(loop l ⟨s, l, l, 0⟩).2.s.reset, (loop l ⟨s, l, l, 0⟩).2.s.code, Ready.reset _, ?_⟩
  unfold nextCode
  simp only [h.yes, if_true]
  rw [if_pos h.st, h.buffer, if_neg hw, h.typ, h.iter]

/-- After ESC. -/
theorem loop_esc {s : State} (h : Ready s) (m start : List Nat) :
    ∃ j : Iter, loop (27 :: m) ⟨s, 27 :: m, start, 0⟩ = loop m j ∧ At j .esc [27] m := by
  have hs : step ⟨s, 27 :: m, start, 0⟩ 27 = (false, (⟨s, m, start, 0⟩ : Iter).to .esc) := by
    simp only [step, h.st, nextUnknown, if_true, Iter.adv, next_ascii (show 27 < 128 by decide) (show (27:Nat) ≠ 0 by decide)]
  refine ⟨_, go_one (i := ⟨s, 27 :: m, start, 0⟩) (by decide) (by decide) rfl hs rfl rfl rfl (by simp [Iter.to]) (by rw [h.cur]; decide), rfl, rfl, ?_, rfl⟩
  show cur s ++ [27] = _
  rw [h.cur]; rfl

theorem loop_control {s : State} (h : Ready s) {c : Nat} (h0 : c ≠ 0) (hc : c < 32) (he : c ≠ 27) (m : List Nat) :
    Done (loop (c :: m) ⟨s, c :: m, c :: m, 0⟩) [c] .c0 m := by
  have hs : step ⟨s, c :: m, c :: m, 0⟩ c = (true, (⟨s, m, c :: m, 0⟩ : Iter).kind .c0 c) := by
    simp only [step, h.st, nextUnknown, if_neg he, if_pos (show c ≤ 0x1f by omega), Iter.adv, next_ascii (show c < 128 by omega) h0]
  rw [done_one (i := ⟨s, c :: m, c :: m, 0⟩) (show c < 128 by omega) h0 rfl hs rfl rfl rfl (by simp [Iter.kind, h.st]) (by rw [h.cur]; decide)]
  refine ⟨rfl, rfl, by simp [Iter.more, Iter.kind, h.st], ?_, rfl⟩
  show cur s ++ [c] = _
  rw [h.cur]; rfl

theorem loop_lower {j : Iter} {c : Nat} {m : List Nat} (h : At j .esc [27] (c :: m)) (hc : 0x60 ≤ c) (hc' : c ≤ 0x7f) :
    Done (loop (c :: m) j) [27, c] .icf m := by
  have hs : step j c = (true, j.adv.kind .icf c) := by
    simp only [step, h.st, nextEsc, if_neg (show ¬ (0x40 ≤ c ∧ c ≤ 0x5f) by omega), if_pos (show 0x60 ≤ c ∧ c ≤ 0x7f by omega)]
  have hi : (j.adv.kind .icf c).iter = m := by
    show next j.iter = m
    rw [h.iter, next_ascii (by omega) (by omega)]
  have := done_one (by omega) (by omega) h.iter hs hi rfl rfl (by simp [Iter.kind, Iter.adv, h.st]) (by rw [h.cur]; decide)
  rw [h.iter] at this
  rw [this, h.cur]
  exact ⟨rfl, hi, by simp [Iter.more, Iter.kind, Iter.adv, h.st], rfl, rfl⟩

theorem c1_code {c : Nat} (h : 0x40 ≤ c) (hc : c ≤ 0x5f) : c % 32 + 64 = c := by omega

theorem loop_upper {j : Iter} {c : Nat} {m : List Nat} (h : At j .esc [27] (c :: m)) (hc : 0x40 ≤ c) (hc' : c ≤ 0x5f)
    (hn : c ∉ [0x50, 0x58, 0x5b, 0x5d, 0x5e, 0x5f]) : Done (loop (c :: m) j) [27, c] .c1 m := by
  simp only [List.mem_cons, List.not_mem_nil, or_false] at hn
  have hs : step j c = (true, j.adv.kind .c1 c) := by
    simp only [step, h.st, nextEsc, if_pos (show 0x40 ≤ c ∧ c ≤ 0x5f by omega), nextC1, c1_code hc hc']
    rw [if_neg (by omega), if_neg (by omega), if_neg (by omega)]
  have hi : (j.adv.kind .c1 c).iter = m := by
    show next j.iter = m
    rw [h.iter, next_ascii (by omega) (by omega)]
  have := done_one (by omega) (by omega) h.iter hs hi rfl rfl (by simp [Iter.kind, Iter.adv, h.st]) (by rw [h.cur]; decide)
  rw [h.iter] at this
  rw [this, h.cur]
  exact ⟨rfl, hi, by simp [Iter.more, Iter.kind, Iter.adv, h.st], rfl, rfl⟩

/-- After `CSI`. -/
theorem loop_intro {j : Iter} {m : List Nat} (h : At j .esc [27] (91 :: m)) :
    ∃ j' : Iter, loop (91 :: m) j = loop m j' ∧ At j' .csiP [27, 91] m ∧ j'.s.typ = some .c1 := by
  have hs : step j 91 = (false, (j.adv.kind .c1 91).to .csiP) := by
    simp [step, h.st, nextEsc, nextC1]
  have hi : ((j.adv.kind .c1 91).to .csiP).iter = m := by
    show next j.iter = m
    rw [h.iter, next_ascii (by omega) (by omega)]
  have := go_one (by omega) (by omega) h.iter hs hi rfl rfl (by simp [Iter.to]) (by rw [h.cur]; decide)
  rw [h.iter, h.cur] at this
  exact ⟨_, this, ⟨hi, rfl, rfl, rfl⟩, rfl⟩

theorem loop_params : ∀ (ps : List Nat) (j : Iter) (b m : List Nat), At j .csiP b (ps ++ m) → j.s.typ = some .c1 → (∀ c ∈ ps, Param c) →
    b.length + ps.length ≤ bufferLimit → ∃ j' : Iter, loop (ps ++ m) j = loop m j' ∧ At j' .csiP (b ++ ps) m ∧ j'.s.typ = some .c1 := by
  intro ps
  induction ps with
  | nil => intro j b m h ht _ _; exact ⟨j, rfl, by simpa using h, ht⟩
  | cons c ps ih =>
    intro j b m h ht hp hl
    have hc := hp c (by simp)
    have h1 := hc.1
    have h2 := hc.2
    rw [List.length_cons] at hl
    have hs : step j c = (false, j.adv) := by
      simp only [step, h.st, nextCsiP, if_pos (show 0x30 ≤ c ∧ c ≤ 0x3f from hc)]
    have hi : j.adv.iter = ps ++ m := by
      show next j.iter = _
      rw [h.iter]; exact next_ascii (by omega) (by omega)
    have := go_one (by omega) (by omega) h.iter hs hi rfl rfl (by simp [Iter.adv, h.st]) (by rw [h.cur]; omega)
    rw [h.iter, h.cur] at this
    obtain ⟨j', e, a, t⟩ := ih (Iter.more j.adv (b ++ [c])) (b ++ [c]) m ⟨hi, h.st, rfl, rfl⟩ ht (fun x hx => hp x (by simp [hx])) (by simp; omega)
    exact ⟨j', this.trans e, by simpa using a, t⟩

theorem loop_middles : ∀ (is : List Nat) (j : Iter) (st : St) (b m : List Nat), (st = .csiP ∨ st = .csiF) → At j st b (is ++ m) → j.s.typ = some .c1 →
    (∀ c ∈ is, Middle c) → b.length + is.length ≤ bufferLimit →
    ∃ (j' : Iter) (st' : St), (st' = .csiP ∨ st' = .csiF) ∧ loop (is ++ m) j = loop m j' ∧ At j' st' (b ++ is) m ∧ j'.s.typ = some .c1 := by
  intro is
  induction is with
  | nil => intro j st b m hst h ht _ _; exact ⟨j, st, hst, rfl, by simpa using h, ht⟩
  | cons c is ih =>
    intro j st b m hst h ht hp hl
    have hc := hp c (by simp)
    have h1 := hc.1
    have h2 := hc.2
    rw [List.length_cons] at hl
    have hs : ∃ j1 : Iter, step j c = (false, j1) ∧ j1.iter = next j.iter ∧ j1.s.st = .csiF ∧ j1.s.buffer = j.s.buffer ∧ j1.s.clear = j.s.clear ∧ j1.s.typ = j.s.typ := by
      rcases hst with hst | hst
      · refine ⟨(j.to .csiF).adv, ?_, rfl, rfl, rfl, rfl, rfl⟩
        simp only [step, h.st, hst, nextCsiP, nextCsiF, if_neg (show ¬ (0x30 ≤ c ∧ c ≤ 0x3f) by omega), if_pos (show 0x20 ≤ c ∧ c ≤ 0x2f from hc)]
      · refine ⟨j.adv, ?_, rfl, h.st.trans hst, rfl, rfl, rfl⟩
        simp only [step, h.st, hst, nextCsiF, if_pos (show 0x20 ≤ c ∧ c ≤ 0x2f from hc)]
    obtain ⟨j1, s1, s2, s3, s4, s5, s6⟩ := hs
    have hi : j1.iter = is ++ m := by
      rw [s2, h.iter]; exact next_ascii (by omega) (by omega)
    have := go_one (by omega) (by omega) h.iter s1 hi s4 s5 (by rw [s3]; simp) (by rw [h.cur]; omega)
    rw [h.iter, h.cur] at this
    obtain ⟨j', st', q, e, a, t⟩ := ih (Iter.more j1 (b ++ [c])) .csiF (b ++ [c]) m (Or.inr rfl) ⟨hi, s3, rfl, rfl⟩ (s6.trans ht) (fun x hx => hp x (by simp [hx])) (by simp; omega)
    exact ⟨j', st', q, this.trans e, by simpa using a, t⟩

theorem loop_final {j : Iter} {st : St} {b m : List Nat} {f : Nat} (hst : st = .csiP ∨ st = .csiF) (h : At j st b (f :: m)) (ht : j.s.typ = some .c1)
    (hf : Final f) (hl : b.length + 1 ≤ bufferLimit) : Done (loop (f :: m) j) (b ++ [f]) .c1 m := by
  have h1 := hf.1
  have h2 := hf.2
  have hs : ∃ j1 : Iter, step j f = (true, j1) ∧ j1.iter = next j.iter ∧ j1.s.st ≠ .char ∧ j1.s.buffer = j.s.buffer ∧ j1.s.clear = j.s.clear ∧ j1.s.typ = j.s.typ := by
    rcases hst with hst | hst
    · refine ⟨(j.to .csiF).adv, ?_, rfl, by simp [Iter.to, Iter.adv], rfl, rfl, rfl⟩
      simp only [step, h.st, hst, nextCsiP, nextCsiF, if_neg (show ¬ (0x30 ≤ f ∧ f ≤ 0x3f) by omega), if_neg (show ¬ (0x20 ≤ f ∧ f ≤ 0x2f) by omega),
        if_pos (show 0x40 ≤ f ∧ f ≤ 0x7e from hf)]
    · refine ⟨j.adv, ?_, rfl, by simp [Iter.adv, h.st, hst], rfl, rfl, rfl⟩
      simp only [step, h.st, hst, nextCsiF, if_neg (show ¬ (0x20 ≤ f ∧ f ≤ 0x2f) by omega), if_pos (show 0x40 ≤ f ∧ f ≤ 0x7e from hf)]
  obtain ⟨j1, s1, s2, s3, s4, s5, s6⟩ := hs
  have hi : j1.iter = m := by
    rw [s2, h.iter]; exact next_ascii (by omega) (by omega)
  have := done_one (by omega) (by omega) h.iter s1 hi s4 s5 s3 (by rw [h.cur]; omega)
  rw [h.iter, h.cur] at this
  rw [this]
  exact ⟨rfl, hi, s3, rfl, s6.trans ht⟩

/-- The code ends too early. -/
theorem loop_short {j : Iter} {st : St} {b : List Nat} (hst : st ≠ .char) (h : At j st b []) : (loop [] j).1 = false := by
  rw [loop_stop (by rw [h.iter]; rfl), h.st]
  simpa using hst

/-! ## Text -/

/-- What can follow text: nothing, or ESC or another control character. -/
def Ends (t : List Nat) : Prop := ∀ c, t.head? = some c → c ≠ 0 ∧ c < 32

theorem loop_text : ∀ (cs : List Nat) (copy t : List Nat) (j : Iter), j.iter = flat cs ++ t → j.s.st = .char → j.s.typ = some .chars →
    (∀ c ∈ cs, IsText c ∧ 32 ≤ c) → Ends t →
    (loop copy j).1 = true ∧ (loop copy j).2.iter = t ∧ (loop copy j).2.start = j.start ∧ (loop copy j).2.s.st = .char ∧
      (loop copy j).2.s.typ = some .chars := by
  intro cs
  induction cs with
  | nil =>
    intro copy t j hi hst hty _ ht
    have hi : j.iter = t := hi
    cases ht' : t with
    | nil =>
      rw [ht'] at hi
      rw [loop_stop (by rw [hi]; rfl)]
      exact ⟨by simp [hst], hi, rfl, hst, hty⟩
    | cons c t =>
      obtain ⟨h0, hc⟩ := ht c (by rw [ht']; rfl)
      rw [ht'] at hi
      have hs : step j c = (true, { j with s := { j.s with typ := some .chars } }) := by
        simp only [step, hst, nextChar, if_pos (show c ≤ 0x1f by omega)]
      rw [loop_done (by rw [hi]; exact peek_ascii (by omega) h0) h0 hs]
      have hk : keep copy { j with s := { j.s with typ := some .chars } } = ({ j with s := { j.s with typ := some .chars } }, copy) := by
        simp [keep, hst]
      rw [hk]
      exact ⟨rfl, hi, rfl, hst, rfl⟩
  | cons c cs ih =>
    intro copy t j hi hst hty hcs ht
    obtain ⟨hc, h32⟩ := hcs c (by simp)
    have hi : j.iter = specUtf8 c ++ (flat cs ++ t) := by rw [hi]; simp [flat]
    have hs : step j c = (false, j.adv) := by
      simp only [step, hst, nextChar, if_neg (show ¬ c ≤ 0x1f by omega)]
    rw [loop_go (by rw [hi]; exact Doskey.peek_flat hc _) (by omega) hs]
    have hk : keep copy j.adv = (j.adv, copy) := by simp [keep, Iter.adv, hst]
    rw [hk]
    exact ih copy t j.adv (by show next j.iter = _; rw [hi]; exact Doskey.next_flat hc _) hst hty (fun x hx => hcs x (by simp [hx])) ht

theorem code_text {s : State} (h : Ready s) {c : Nat} {cs t : List Nat} (hp : Printable c) (hcs : ∀ x ∈ c :: cs, IsText x ∧ 32 ≤ x) (ht : Ends t)
    (hl : (flat (c :: cs)).length < 65536) :
    ∃ s' x, Ready s' ∧ nextCode s 0 (flat (c :: cs) ++ t) = (some ⟨flat (c :: cs), some .chars, x⟩, s', 0, t) := by
  obtain ⟨hc, h32⟩ := hcs c (by simp)
  have hfl : flat (c :: cs) ++ t = specUtf8 c ++ (flat cs ++ t) := by simp [flat]
  have hs : step ⟨s, flat (c :: cs) ++ t, flat (c :: cs) ++ t, 0⟩ c =
      (false, ⟨{ s with typ := some .chars, st := .char }, flat cs ++ t, flat (c :: cs) ++ t, 0⟩) := by
    simp only [step, h.st, nextUnknown, if_neg (show c ≠ 27 by omega), if_neg (show ¬ c ≤ 0x1f by omega), if_neg hp.2, Iter.adv]
    rw [show next (flat (c :: cs) ++ t) = flat cs ++ t by rw [hfl]; exact Doskey.next_flat hc _]
  have hgo := loop_go (copy := flat (c :: cs) ++ t) (i := ⟨s, flat (c :: cs) ++ t, flat (c :: cs) ++ t, 0⟩) (by show peek (flat (c :: cs) ++ t) = _; rw [hfl]; exact Doskey.peek_flat hc _) (by omega) hs
  have hk : ∀ copy, keep copy ⟨{ s with typ := some .chars, st := .char }, flat cs ++ t, flat (c :: cs) ++ t, 0⟩ =
      (⟨{ s with typ := some .chars, st := .char }, flat cs ++ t, flat (c :: cs) ++ t, 0⟩, copy) := by intro copy; simp [keep]
  rw [hk] at hgo
  obtain ⟨e1, e2, e3, e4, e5⟩ := loop_text cs (flat (c :: cs) ++ t) t ⟨{ s with typ := some .chars, st := .char }, flat cs ++ t, flat (c :: cs) ++ t, 0⟩
    rfl rfl rfl (fun x hx => hcs x (by simp [hx])) ht
  simp only at hgo
  rw [← hgo] at e1 e2 e3 e4 e5
  refine ⟨(loop (flat (c :: cs) ++ t) ⟨s, flat (c :: cs) ++ t, flat (c :: cs) ++ t, 0⟩).2.s.reset,
    (loop (flat (c :: cs) ++ t) ⟨s, flat (c :: cs) ++ t, flat (c :: cs) ++ t, 0⟩).2.s.code, Ready.reset _, ?_⟩
  have hne : flat (c :: cs) ≠ [] := by
    intro hh
    have : specUtf8 c ++ flat cs = [] := hh
    have h1 := (List.append_eq_nil_iff.1 this).1
    revert h1
    unfold specUtf8; split <;> (try split) <;> (try split) <;> simp
  have hlen : (flat (c :: cs) ++ t).length - t.length = (flat (c :: cs)).length := by simp
  unfold nextCode
  simp only [e1, if_true, e2, e3, e4, e5, ne_eq, not_true_eq_false, if_false]
  rw [hlen, Nat.mod_eq_of_lt hl, List.take_left, if_neg hne]

end Clink.Ecma48
