import Verif.Model.TermReq
import Verif.Spec.TermReq
import Verif.Proof.TermInText

/-!
What one record makes of the state while a request is on its way.
-/

namespace Clink.TermReq
open Spec Clink.TermIn Clink.TermIn.Spec
open Clink.Utf (specUtf8)

/-- The state between two records. -/
structure Asking (s : St) : Prop extends s.Ring where
  empty : s.count = 0
  lead : s.lead = 0
  sending : s.sending = true

/-- Everything but the buffer and the buttons of the mouse. -/
structure Keeps (s t : St) : Prop where
  pending : t.pending = s.pending
  processed : t.processed = s.processed
  queue : t.queue = s.queue
  sending : t.sending = s.sending
  force : t.force = s.force

theorem Keeps.refl (s : St) : Keeps s s := ⟨rfl, rfl, rfl, rfl, rfl⟩
theorem same_keeps {s t : St} (h : Same s t) : Keeps s t := ⟨h.pending, h.processed, h.queue, h.sending, h.force⟩
theorem Keeps.trans {s t u : St} (h : Keeps s t) (k : Keeps t u) : Keeps s u :=
  ⟨k.1.trans h.1, k.2.trans h.2, k.3.trans h.3, k.4.trans h.4, k.5.trans h.5⟩

/-- The state after a record. -/
structure Took (s : St) (r : Record) (t : St) (c : List Nat) : Prop where
  ring : t.Ring
  lead : t.lead = 0
  pending : t.pending = s.pending
  processed : t.processed = s.processed ++ [r]
  queue : t.queue = s.queue
  sending : t.sending = s.sending
  force : t.force = s.force
  held : t.held = c

/-- The record gives `c`. -/
structure Reads (g : Cfg) (r : Record) (c : List Nat) : Prop where
  look : ∀ s, Asking s → Asking (peekRecord g s r).1 ∧ Keeps s (peekRecord g s r).1
  yes : ∀ s, Asking s → c ≠ [] → (peekRecord g s r).2.1 = true
  some : ∀ s, (peekRecord g s r).2.1 = true → r ≠ .other
  take : ∀ s, Asking s → r ≠ .other → Took s r (processRecord g s r).1 c

theorem processKey_raw {g : Cfg} {s : St} (h : Asking s) (k : Key) : processKey g s k = s.apply (act g true true k) := by
  unfold processKey; rw [h.sending, h.empty, Bool.or_true]; rfl

/-- What a key makes of the buffer. -/
def Chunk (g : Cfg) (k : Key) (c : List Nat) : Prop :=
  ∀ s, Asking s → (processKey g s k).Ring ∧ Same s (processKey g s k) ∧ (processKey g s k).lead = 0 ∧ (processKey g s k).held = c

theorem chunk_none {g : Cfg} {k : Key} (ha : act g true true k = .none) : Chunk g k [] := by
  intro s h
  rw [processKey_raw h, ha]
  exact ⟨h.1, Same.refl s, h.lead, held_nil h.empty⟩

theorem chunk_seq {g : Cfg} {k : Key} {l : List Nat} (ha : act g true true k = .seq l) : Chunk g k l := by
  intro s h
  rw [processKey_raw h, ha]
  have := pushSeq_held h.1 l (by have := act_short.1 l ha; have := h.empty; omega)
  rw [held_nil h.empty] at this
  exact this

theorem chunk_chars {g : Cfg} {k : Key} {cs : List Nat} (ha : act g true true k = .chars cs) (hu : ∀ c ∈ cs, Unit c) : Chunk g k (cs.flatMap specUtf8) := by
  intro s h
  rw [processKey_raw h, ha]
  have := pushVals h.1 h.lead hu (by have := act_short.2 cs ha; have := h.empty; omega)
  rw [held_nil h.empty] at this
  exact this

theorem chunk_exit {g : Cfg} {k : Key} (ha : act g true true k = .exit) : Chunk g k [0xFD] := by
  intro s h
  rw [processKey_raw h, ha]
  refine ⟨⟨by simp [St.apply, h.len], by simp [St.apply], by simp [St.apply]⟩, ⟨rfl, rfl, rfl, rfl, rfl, rfl, rfl⟩, h.lead, ?_⟩
  have : 0 < s.buf.length := by rw [h.len]; omega
  simp [St.apply, St.held, St.chord, this]

theorem peek_count {g : Cfg} {k : Key} {c : List Nat} (hc : Chunk g k c) {s : St} (h : Asking s) :
    (peekRecord g s (.key k)).2.1 = true ↔ c ≠ [] := by
  have h1 : (peekRecord g s (.key k)).2.1 = decide ((processKey g s k).count > s.count) := rfl
  have h2 := (hc s h).2.2.2
  rw [h1, h.empty, decide_eq_true_eq, ← held_length, h2]
  exact List.length_pos_iff

theorem chunk_reads {g : Cfg} (hp : Plain g.keys) {k : Key} {c : List Nat} (hc : Chunk g k c) : Reads g (.key k) (heard g.keys c) := by
  refine ⟨fun s h => ?_, fun s h hn => ?_, fun s _ => by simp, fun s h _ => ?_⟩
  · obtain ⟨m1, m2, m3, m4⟩ := hc s h
    have hl : (if s.lead ≠ 0 then s.lead else (processKey g s k).lead) = 0 := by rw [m3, h.lead]; rfl
    exact ⟨⟨⟨m1.len, m1.head, by show s.count ≤ 16; rw [h.empty]; omega⟩, h.empty, hl, m2.sending.trans h.sending⟩,
      ⟨m2.pending, m2.processed, m2.queue, m2.sending, m2.force⟩⟩
  · rw [peek_count hc h]
    intro h0
    rw [h0] at hn
    exact hn (by simp [heard])
  · obtain ⟨m1, m2, m3, m4⟩ := hc s h
    obtain ⟨f1, f2, f3, f4⟩ := filter_heard hp m1 m3
    have hsame := m2.trans f2
    have he : (processRecord g s (.key k)).1 = { filterUnbound g (processKey g s k) 0 with processed := (filterUnbound g (processKey g s k) 0).processed ++ [.key k] } := by
      unfold processRecord
      simp only [h.empty]
      rw [if_pos (hsame.sending.trans h.sending)]
    rw [he]
    refine ⟨⟨f1.len, f1.head, f1.count⟩, f3, hsame.pending, ?_, hsame.queue, hsame.sending, hsame.force, ?_⟩
    · show (filterUnbound g (processKey g s k) 0).processed ++ _ = _
      rw [hsame.processed]
    · show (filterUnbound g (processKey g s k) 0).held = _
      rw [f4, m4]

theorem act_raw (g : Cfg) (k : Key) : act g true true k = act g false true k ∨
    (k.ch = 27 ∧ act g true true k = actKey g true k.vk k.sc k.ch k.flags) := by
  unfold act
  by_cases h1 : !k.down ∧ ¬ (k.vk = 18 ∧ k.ch ≠ 0)
  · rw [if_pos h1, if_pos h1]; exact Or.inl rfl
  rw [if_neg h1, if_neg h1]
  by_cases h2 : k.vk = 18
  · rw [if_pos h2, if_pos h2]; exact Or.inl rfl
  rw [if_neg h2, if_neg h2]
  by_cases h3 : k.vk = 17 ∨ k.vk = 16 ∨ k.vk = 0x5B ∨ k.vk = 0x5C
  · rw [if_pos h3, if_pos h3]; exact Or.inl rfl
  rw [if_neg h3, if_neg h3, if_neg (show ¬ (k.ch = 27 ∧ (k.vk = 27 ∨ !g.differentiate) ∧ !true ∧ !g.rawEsc) by simp)]
  by_cases h4 : k.ch = 27
  · exact Or.inr ⟨h4, rfl⟩
  · rw [if_neg (fun h => h4 h.1)]; exact Or.inl rfl

theorem act_none {g : Cfg} {k : Key} (h : act g false true k = .none) : act g true true k = .none := by
  unfold act at h ⊢
  by_cases h1 : !k.down ∧ ¬ (k.vk = 18 ∧ k.ch ≠ 0)
  · rw [if_pos h1]
  rw [if_neg h1] at h ⊢
  by_cases h2 : k.vk = 18
  · rw [if_pos h2] at h ⊢; exact h
  rw [if_neg h2] at h ⊢
  by_cases h3 : k.vk = 17 ∨ k.vk = 16 ∨ k.vk = 0x5B ∨ k.vk = 0x5C
  · rw [if_pos h3]
  rw [if_neg h3] at h ⊢
  split at h
  · cases h
  · rw [if_neg (by simp)]; exact h

theorem act_esc {g : Cfg} {k : Key} (he : PlainEsc (.key k)) (h : k.ch = 27) (hr : act g true true k = actKey g true k.vk k.sc k.ch k.flags) :
    act g true true k = .chars [27] := by
  obtain ⟨hv, hc, ha⟩ := he h
  rw [hr, h]
  have hl : k.flags.lalt = false := by unfold Flags.alt at ha; revert ha; cases k.flags.lalt <;> simp
  unfold actKey simpleChar
  rcases hv with hv | hv <;> simp [hv, hl, hc, ha, keymodIndex] <;> (split <;> simp)

/-- What a record gives by itself, it gives in a request too, but for Esc. -/
theorem quiet_reads {g : Cfg} (hp : Plain g.keys) {r : Record} (hq : Quiet g r) : Reads g r [] := by
  cases r with
  | key k =>
    have := chunk_reads hp (chunk_none (act_none hq))
    rwa [show heard g.keys [] = [] by simp [heard]] at this
  | mouse m =>
    refine ⟨fun s h => ?_, fun _ _ hn => absurd rfl hn, fun _ _ => by simp, fun s h _ => ?_⟩
    · have hm := mouse_quiet hq s.prevLeft s.prevRight
      have e1 : (peekRecord g s (.mouse m)).1 = { s with prevLeft := m.left, prevRight := m.right } := by
        unfold peekRecord processMouse
        simp only [hm, St.apply]
        unfold revert
        simp
      rw [e1]
      exact ⟨⟨⟨h.len, h.head, h.1.count⟩, h.empty, h.lead, h.sending⟩, ⟨rfl, rfl, rfl, rfl, rfl⟩⟩
    · have hm := mouse_quiet hq s.prevLeft s.prevRight
      have e1 : (processRecord g s (.mouse m)).1 = { s with prevLeft := m.left, prevRight := m.right, processed := s.processed ++ [.mouse m] } := by
        unfold processRecord processMouse
        simp [hm, St.apply, h.sending]
      rw [e1]
      exact ⟨⟨h.len, h.head, h.1.count⟩, h.lead, rfl, rfl, rfl, rfl, rfl, held_nil h.empty⟩
  | size c =>
    refine ⟨fun s h => ⟨h, Keeps.refl s⟩, fun _ _ hn => absurd rfl hn, fun _ _ => by simp, fun s h _ => ?_⟩
    have e1 : (processRecord g s (.size c)).1 = { s with processed := s.processed ++ [.size c] } := by
      unfold processRecord
      simp [h.sending]
    rw [e1]
    exact ⟨⟨h.len, h.head, h.1.count⟩, h.lead, rfl, rfl, rfl, rfl, rfl, held_nil h.empty⟩
  | other =>
    exact ⟨fun s h => ⟨h, Keeps.refl s⟩, fun _ _ hn => absurd rfl hn, fun _ h => (by cases h), fun _ _ h => absurd rfl h⟩

theorem alone_reads {g : Cfg} (hp : Plain g.keys) {r : Record} {b : List Nat} (hg : Gives g 0 [r] b) (he : PlainEsc r) :
    ∃ c, Reads g r c ∧ (∀ s, Asking s → (peekRecord g s r).2.1 = false → b = []) ∧ ((∀ k, r = .key k → k.ch ≠ 27) → c = b) := by
  have lift : ∀ (k : Key) (c : List Nat), r = .key k → Chunk g k c → (k.ch = 27 ∧ c ≠ [] ∨ b = heard g.keys c) →
      ∃ c, Reads g r c ∧ (∀ s, Asking s → (peekRecord g s r).2.1 = false → b = []) ∧ ((∀ k, r = .key k → k.ch ≠ 27) → c = b) := by
    rintro k c rfl hc hb
    refine ⟨_, chunk_reads hp hc, fun s h hf => ?_, fun hn => ?_⟩
    · have h0 : c = [] := Classical.byContradiction fun hh => by rw [(peek_count hc h).2 hh] at hf; cases hf
      rcases hb with hb | hb
      · exact absurd h0 hb.2
      · rw [hb, h0]; simp [heard]
    · rcases hb with hb | hb
      · exact absurd hb.1 (hn k rfl)
      · exact hb.symm
  have esc : ∀ k, r = .key k → k.ch = 27 → act g true true k = actKey g true k.vk k.sc k.ch k.flags →
      ∃ c, Reads g r c ∧ (∀ s, Asking s → (peekRecord g s r).2.1 = false → b = []) ∧ ((∀ k, r = .key k → k.ch ≠ 27) → c = b) := by
    rintro k rfl h1 h2
    exact lift k _ rfl (chunk_chars (act_esc he h1 h2) (by simp [Spec.Unit])) (Or.inl ⟨h1, by simp [specUtf8]⟩)
  generalize hl : 0 = l at hg
  generalize hrr : [r] = rr at hg
  cases hg with
  | nil => cases hrr
  | @quiet l' r' rs' bs' hq hr =>
    injection hrr with h1 h2; subst h1; subst h2; subst hl
    have hb : b = [] := by cases hr; rfl
    subst hb
    exact ⟨[], quiet_reads hp hq, fun _ _ _ => rfl, fun _ => rfl⟩
  | @seq k q rs' bs' ha hr =>
    injection hrr with h1 h2; subst h1; subst h2
    have hb : bs' = [] := by cases hr; rfl
    subst hb
    rw [List.append_nil] at *
    rcases act_raw g k with e | ⟨e1, e2⟩
    · exact lift k q rfl (chunk_seq (e.trans ha)) (Or.inr rfl)
    · exact esc k rfl e1 e2
  | @chars k q rs' bs' ha hu hr =>
    injection hrr with h1 h2; subst h1; subst h2
    have hb : bs' = [] := by cases hr; rfl
    subst hb
    rw [List.append_nil] at *
    rcases act_raw g k with e | ⟨e1, e2⟩
    · exact lift k _ rfl (chunk_chars (e.trans ha) hu) (Or.inr rfl)
    · exact esc k rfl e1 e2
  | @lead k hi rs' bs' ha hh hr =>
    injection hrr with h1 h2; subst h1; subst h2
    cases hr with
    | nil => have := hh.1; omega
  | @trail k hi lo rs' bs' ha hh htr hr => subst hl; have := hh.1; omega
  | @exit k rs' bs' ha hr =>
    injection hrr with h1 h2; subst h1; subst h2
    have hb : bs' = [] := by cases hr; rfl
    subst hb
    rw [List.append_nil] at *
    rcases act_raw g k with e | ⟨e1, e2⟩
    · exact lift k _ rfl (chunk_exit (e.trans ha)) (Or.inr rfl)
    · exact esc k rfl e1 e2

theorem drain_all : ∀ (n : Nat) (s : St), s.Ring → s.count ≤ n →
    (drain n s).2 = s.held ∧ (drain n s).1.Ring ∧ (drain n s).1.count = 0 ∧ Same s (drain n s).1 ∧ (drain n s).1.lead = s.lead := by
  intro n
  induction n with
  | zero =>
    intro s h hc
    exact ⟨(held_nil (by omega)).symm, h, by show s.count = 0; omega, Same.refl s, rfl⟩
  | succ n ih =>
    intro s h hc
    unfold drain
    by_cases h0 : s.count = 0
    · rw [if_pos h0]; exact ⟨(held_nil h0).symm, h, h0, Same.refl s, rfl⟩
    · rw [if_neg h0]
      obtain ⟨p1, p2, p3, p4⟩ := pop_held h h0
      have hcount : (pop s).1.count ≤ n := by unfold pop; rw [if_neg h0]; show s.count - 1 ≤ n; omega
      obtain ⟨q1, q2, q3, q4, q5⟩ := ih (pop s).1 p2 hcount
      exact ⟨by rw [p1, q1], q2, q3, p3.trans q4, q5.trans p4⟩

end Clink.TermReq
