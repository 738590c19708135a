import Verif.Spec.TermIn
import Verif.Proof.Utf

/-!
The ring buffer, and what one record makes of it.
-/

namespace Clink.TermIn
open Spec Clink.Utf

/-- The buffer is what it should be. -/
structure St.Ring (s : St) : Prop where
  len : s.buf.length = 16
  head : s.head < 16
  count : s.count ≤ 16

/-- What is in the buffer. -/
def St.held (s : St) : List Nat := s.chord s.count

theorem chord_getElem (s : St) (n i : Nat) (h : i < n) :
    (s.chord n)[i]'(by simp [St.chord]; exact h) = s.buf.getD ((s.head + i) % 16) 0 := by
  simp [St.chord]

theorem put_held {s : St} (h : s.Ring) (hc : s.count < 16) (b : Nat) : (s.put b).held = s.held ++ [b] := by
  unfold St.held St.put
  rw [if_pos hc]
  unfold St.chord
  dsimp only
  rw [List.range_succ, List.map_append]
  congr 1
  · apply List.map_congr_left
    intro i hi
    have hi := List.mem_range.1 hi
    rw [List.getD_eq_getElem?_getD, List.getD_eq_getElem?_getD, List.getElem?_set_ne]
    omega
  · simp only [List.map_cons, List.map_nil]
    rw [List.getD_eq_getElem?_getD, List.getElem?_set_self (by rw [h.len]; omega)]
    rfl

theorem put_ring {s : St} (h : s.Ring) (b : Nat) : (s.put b).Ring := by
  unfold St.put
  split
  · exact ⟨by simp [h.len], h.head, by dsimp only; omega⟩
  · exact h

theorem put_count {s : St} (b : Nat) (hc : s.count < 16) : (s.put b).count = s.count + 1 := by
  unfold St.put; rw [if_pos hc]

/-- Everything but the buffer and the first half of a pair is the same. -/
structure Same (s t : St) : Prop where
  prevLeft : t.prevLeft = s.prevLeft
  prevRight : t.prevRight = s.prevRight
  pending : t.pending = s.pending
  processed : t.processed = s.processed
  queue : t.queue = s.queue
  sending : t.sending = s.sending
  force : t.force = s.force

theorem Same.refl (s : St) : Same s s := ⟨rfl, rfl, rfl, rfl, rfl, rfl, rfl⟩
theorem Same.trans {s t u : St} (h : Same s t) (k : Same t u) : Same s u :=
  ⟨k.1.trans h.1, k.2.trans h.2, k.3.trans h.3, k.4.trans h.4, k.5.trans h.5, k.6.trans h.6, k.7.trans h.7⟩

theorem put_same (s : St) (b : Nat) : Same s (s.put b) ∧ (s.put b).lead = s.lead := by
  unfold St.put; split <;> exact ⟨⟨rfl, rfl, rfl, rfl, rfl, rfl, rfl⟩, rfl⟩

theorem puts {s : St} (h : s.Ring) (l : List Nat) :
    (l.foldl St.put s).Ring ∧ Same s (l.foldl St.put s) ∧ (l.foldl St.put s).lead = s.lead ∧
      (s.count + l.length ≤ 16 → (l.foldl St.put s).held = s.held ++ l ∧ (l.foldl St.put s).count = s.count + l.length) := by
  induction l generalizing s with
  | nil => exact ⟨h, Same.refl s, rfl, fun _ => by simp⟩
  | cons b l ih =>
    obtain ⟨h1, h2, h3, h4⟩ := ih (put_ring h b)
    refine ⟨h1, (put_same s b).1.trans h2, h3.trans (put_same s b).2, fun hl => ?_⟩
    rw [List.length_cons] at hl
    have hc := put_count (s := s) b (by omega)
    obtain ⟨h5, h6⟩ := h4 (by omega)
    rw [List.foldl_cons, h5, h6, put_held h (by omega), hc, List.length_cons]
    exact ⟨by simp, by omega⟩

theorem Ring.lead {s : St} (h : s.Ring) (v : Nat) : ({ s with lead := v } : St).Ring := ⟨h.1, h.2, h.3⟩

theorem pop_held {s : St} (h : s.Ring) (hc : s.count ≠ 0) :
    s.held = (pop s).2 :: (pop s).1.held ∧ (pop s).1.Ring ∧ Same s (pop s).1 ∧ (pop s).1.lead = s.lead := by
  unfold pop
  rw [if_neg hc]
  refine ⟨?_, ⟨h.len, by dsimp only; omega, by have := h.count; dsimp only; omega⟩, ⟨rfl, rfl, rfl, rfl, rfl, rfl, rfl⟩, rfl⟩
  unfold St.held St.chord
  dsimp only
  obtain ⟨n, hn⟩ : ∃ n, s.count = n + 1 := ⟨s.count - 1, by omega⟩
  rw [hn, List.range_succ_eq_map]
  simp only [List.map_cons, List.map_map, Nat.add_zero, Nat.add_sub_cancel, Nat.mod_eq_of_lt h.head]
  congr 1
  apply List.map_congr_left
  intro i _
  simp only [Function.comp_apply]
  congr 1
  omega

theorem held_nil {s : St} (h : s.count = 0) : s.held = [] := by unfold St.held; rw [h]; rfl
theorem held_length (s : St) : s.held.length = s.count := by simp [St.held, St.chord]
theorem count_of_held {s : St} (h : s.held = []) : s.count = 0 := by rw [← held_length, h]; rfl

/-! ## Values -/

theorem utf_unit {u : Nat} (h : Unit u) (h0 : 128 ≤ u) : (toUtf8 (some 16) [u % 65536]).out = specUtf8 u := by
  have ht : IsText u := ⟨by omega, by have := h.1; omega, h.2⟩
  rw [Nat.mod_eq_of_lt h.1, toUtf8_some]
  have h16 : [u] = [u].flatMap specUtf16 := by simp [specUtf16, h.1]
  rw [h16, ← List.append_nil ([u].flatMap specUtf16), cps16_flat [u] (by simpa using ht), cps16_nil]
  simp only [List.append_nil, List.flatMap_cons, List.flatMap_nil, enc8_eq_spec u ht.2.1]
  apply List.take_of_length_le
  unfold specUtf8
  split <;> (try split) <;> (try split) <;> simp

theorem pair_text {hi lo : Nat} (h : Lead hi) (k : Trail lo) : IsText (pair hi lo) ∧ specUtf16 (pair hi lo) = [hi, lo] := by
  unfold Lead Trail at *
  unfold IsText pair specUtf16
  refine ⟨by omega, ?_⟩
  rw [if_neg (by omega)]
  simp only [List.cons.injEq, and_true]
  omega

theorem utf_pair {hi lo : Nat} (h : Lead hi) (k : Trail lo) : (toUtf8 (some 16) [hi, lo % 65536]).out = specUtf8 (pair hi lo) := by
  obtain ⟨ht, h16⟩ := pair_text h k
  rw [Nat.mod_eq_of_lt (by have := k.2; omega), toUtf8_some]
  have : [hi, lo] = [pair hi lo].flatMap specUtf16 := by simp [h16]
  rw [this, ← List.append_nil ([pair hi lo].flatMap specUtf16), cps16_flat [pair hi lo] (by simpa using ht), cps16_nil]
  simp only [List.append_nil, List.flatMap_cons, List.flatMap_nil, enc8_eq_spec _ ht.2.1]
  apply List.take_of_length_le
  unfold specUtf8
  split <;> (try split) <;> (try split) <;> simp

theorem utf8_length (c : Nat) : (specUtf8 c).length ≤ 4 := by
  unfold specUtf8; split <;> (try split) <;> (try split) <;> simp

theorem isLead_iff {v : Nat} : isLead v = true ↔ Lead v := by simp [isLead, Lead]

theorem pushSeq_held {s : St} (h : s.Ring) (l : List Nat) (hl : s.count + l.length ≤ 16) :
    (pushSeq s l).Ring ∧ Same s (pushSeq s l) ∧ (pushSeq s l).lead = 0 ∧ (pushSeq s l).held = s.held ++ l := by
  unfold pushSeq
  have := puts (Ring.lead h 0) l
  exact ⟨this.1, ⟨this.2.1.1, this.2.1.2, this.2.1.3, this.2.1.4, this.2.1.5, this.2.1.6, this.2.1.7⟩, this.2.2.1, (this.2.2.2 hl).1⟩

theorem pushVal_unit {s : St} (h : s.Ring) (h0 : s.lead = 0) {u : Nat} (hu : Unit u) (hl : s.count + 4 ≤ 16) :
    (pushVal s u).Ring ∧ Same s (pushVal s u) ∧ (pushVal s u).lead = 0 ∧ (pushVal s u).held = s.held ++ specUtf8 u ∧
      (pushVal s u).count ≤ s.count + 4 := by
  unfold pushVal
  split
  · rename_i hlt
    have h1 := Ring.lead h 0
    have h2 := put_held h1 (by show s.count < 16; omega) u
    refine ⟨put_ring h1 u, ⟨(put_same _ u).1.1, (put_same _ u).1.2, (put_same _ u).1.3, (put_same _ u).1.4, (put_same _ u).1.5,
      (put_same _ u).1.6, (put_same _ u).1.7⟩, (put_same _ u).2, ?_, ?_⟩
    · rw [h2]; simp [specUtf8, hlt]; rfl
    · rw [put_count u (by show s.count < 16; omega)]; show s.count + 1 ≤ _; omega
  · rename_i hlt
    rw [if_neg (by rw [isLead_iff]; unfold Lead; have := hu.2; omega)]
    simp only [h0, ne_eq, not_true_eq_false, if_false, List.nil_append]
    rw [utf_unit hu (by omega)]
    have hp := puts (Ring.lead h 0) (specUtf8 u)
    have hlen := utf8_length u
    have h4 := hp.2.2.2 (by show s.count + _ ≤ 16; omega)
    refine ⟨hp.1, ⟨hp.2.1.1, hp.2.1.2, hp.2.1.3, hp.2.1.4, hp.2.1.5, hp.2.1.6, hp.2.1.7⟩, hp.2.2.1, h4.1, ?_⟩
    rw [h4.2]; show s.count + _ ≤ _; omega

theorem pushVal_trail {s : St} (h : s.Ring) {hi lo : Nat} (h0 : s.lead = hi) (hh : Lead hi) (hl : Trail lo) (hc : s.count + 4 ≤ 16) :
    (pushVal s lo).Ring ∧ Same s (pushVal s lo) ∧ (pushVal s lo).lead = 0 ∧ (pushVal s lo).held = s.held ++ specUtf8 (pair hi lo) := by
  unfold pushVal
  rw [if_neg (by have := hl.1; omega), if_neg (by rw [isLead_iff]; unfold Lead; have := hl.1; omega)]
  have hne : hi ≠ 0 := by have := hh.1; omega
  simp only [h0, hne, ne_eq, not_false_eq_true, if_true, List.cons_append, List.nil_append]
  rw [utf_pair hh hl]
  have hp := puts (Ring.lead h 0) (specUtf8 (pair hi lo))
  have hlen := utf8_length (pair hi lo)
  have h4 := hp.2.2.2 (by show s.count + _ ≤ 16; omega)
  exact ⟨hp.1, ⟨hp.2.1.1, hp.2.1.2, hp.2.1.3, hp.2.1.4, hp.2.1.5, hp.2.1.6, hp.2.1.7⟩, hp.2.2.1, h4.1⟩

theorem pushVals {s : St} (h : s.Ring) (h0 : s.lead = 0) {cs : List Nat} (hu : ∀ c ∈ cs, Unit c) (hl : s.count + 4 * cs.length ≤ 16) :
    (cs.foldl pushVal s).Ring ∧ Same s (cs.foldl pushVal s) ∧ (cs.foldl pushVal s).lead = 0 ∧
      (cs.foldl pushVal s).held = s.held ++ cs.flatMap specUtf8 := by
  induction cs generalizing s with
  | nil => exact ⟨h, Same.refl s, h0, by simp⟩
  | cons c cs ih =>
    rw [List.length_cons] at hl
    obtain ⟨h1, h2, h3, h4, h5⟩ := pushVal_unit h h0 (hu c (by simp)) (by omega)
    obtain ⟨k1, k2, k3, k4⟩ := ih h1 h3 (fun x hx => hu x (by simp [hx])) (by omega)
    refine ⟨k1, h2.trans k2, k3, ?_⟩
    rw [List.foldl_cons, k4, h4]; simp

/-- ASCII, one byte at a time. -/
theorem pushAscii {s : St} (h : s.Ring) (h0 : s.lead = 0) {l : List Nat} (hb : ∀ b ∈ l, b < 128) (hl : s.count + l.length ≤ 16) :
    ((l.map signExtend).foldl pushVal s).Ring ∧ Same s ((l.map signExtend).foldl pushVal s) ∧
      ((l.map signExtend).foldl pushVal s).lead = 0 ∧ ((l.map signExtend).foldl pushVal s).held = s.held ++ l := by
  have key : (l.map signExtend).foldl pushVal s = l.foldl St.put s := by
    induction l generalizing s with
    | nil => rfl
    | cons b l ih =>
      have hb0 := hb b (by simp)
      have : pushVal s b = s.put b := by
        unfold pushVal
        rw [if_pos (by omega)]
        congr 1
        rw [← h0]
      rw [List.length_cons] at hl
      simp only [List.map_cons, List.foldl_cons]
      rw [show signExtend b = b by simp [signExtend, hb0], this]
      have hc := put_count (s := s) b (by omega)
      exact ih (put_ring h b) ((put_same s b).2.trans h0) (fun x hx => hb x (by simp [hx])) (by omega)
  rw [key]
  obtain ⟨h1, h2, h3, h4⟩ := puts h l
  exact ⟨h1, h2, h3.trans h0, (h4 hl).1⟩

end Clink.TermIn
