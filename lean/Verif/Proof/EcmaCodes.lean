import Verif.Proof.Ecma48

/-!
A complete code is read as one piece, whatever follows it; so is a run of text.
-/

namespace Clink.Ecma48

open Utf (IsText specUtf8)
open Doskey (peek next between)
open Doskey.Spec (flat)
open Ecma48.Spec

/-- The iterator inside a code, with what is in the buffer. -/
def inside (b : List Nat) (st : St) (t : Option Typ) (x n : Nat) (start l : List Nat) : Iter := ⟨⟨st, b, false, t, x⟩, l, start, n⟩

theorem eat (st' : St) (t' : Option Typ) (x' n' : Nat) {b : List Nat} {st : St} {t : Option Typ} {x n : Nat} {start m : List Nat} {c : Nat} (hc : IsText c) (h1 : st' ≠ .char)
    (hs : step (inside b st t x n start (specUtf8 c ++ m)) c = (false, inside b st' t' x' n' start m)) (hb : (b ++ specUtf8 c).length ≤ bufferLimit) :
    loop (specUtf8 c ++ m) (inside b st t x n start (specUtf8 c ++ m)) = loop m (inside (b ++ specUtf8 c) st' t' x' n' start m) := by
  rw [loop_go (i := inside b st t x n start (specUtf8 c ++ m)) (Doskey.peek_flat hc m) (by have := hc.1; omega) hs]
  have hk : keep (specUtf8 c ++ m) (inside b st' t' x' n' start m) = (inside (b ++ specUtf8 c) st' t' x' n' start m, m) := by
    simp only [keep, inside, ne_eq, h1, not_false_eq_true, if_true, between_mid, Bool.false_eq_true, if_false, List.take_of_length_le hb]
  rw [hk]

theorem last (st' : St) (t' : Option Typ) (x' n' : Nat) {b : List Nat} {st : St} {t : Option Typ} {x n : Nat} {start m : List Nat} {c : Nat} (hc : IsText c) (h1 : st' ≠ .char)
    (hs : step (inside b st t x n start (specUtf8 c ++ m)) c = (true, inside b st' t' x' n' start m)) (hb : (b ++ specUtf8 c).length ≤ bufferLimit) :
    loop (specUtf8 c ++ m) (inside b st t x n start (specUtf8 c ++ m)) = (true, inside (b ++ specUtf8 c) st' t' x' n' start m) := by
  rw [loop_done (i := inside b st t x n start (specUtf8 c ++ m)) (Doskey.peek_flat hc m) (by have := hc.1; omega) hs]
  have hk : keep (specUtf8 c ++ m) (inside b st' t' x' n' start m) = (inside (b ++ specUtf8 c) st' t' x' n' start m, m) := by
    simp only [keep, inside, ne_eq, h1, not_false_eq_true, if_true, between_mid, Bool.false_eq_true, if_false, List.take_of_length_le hb]
  rw [hk]

/-- The state in which a code can start. -/
def Fresh (s : State) : Prop := s.st = .unknown ∧ s.clear = true

theorem adv_inside {b : List Nat} {st : St} {t : Option Typ} {x n : Nat} {start m : List Nat} {c : Nat} (hc : IsText c) :
    (inside b st t x n start (specUtf8 c ++ m)).adv = inside b st t x n start m := by
  simp [Iter.adv, inside, Doskey.next_flat hc]

theorem flat_cons (c : Nat) (w : List Nat) : flat (c :: w) = specUtf8 c ++ flat w := rfl
theorem flat_append (a b : List Nat) : flat (a ++ b) = flat a ++ flat b := by simp [flat]

theorem to_inside (b : List Nat) (st st' : St) (t : Option Typ) (x n : Nat) (start l : List Nat) : (inside b st t x n start l).to st' = inside b st' t x n start l := rfl

theorem text_nat (c : Nat) (h : 0 < c) (h2 : c < 0x80) : IsText c := ⟨h, by omega, by omega⟩

/-- Repeated steps that keep the state. -/
theorem eats {st : St} {t : Option Typ} {x n : Nat} {start : List Nat} (h1 : st ≠ .char) (w : List Nat) :
    ∀ (b m : List Nat), (∀ c ∈ w, IsText c) →
      (∀ c ∈ w, ∀ b m, step (inside b st t x n start (specUtf8 c ++ m)) c = (false, inside b st t x n start m)) →
      (b ++ flat w).length ≤ bufferLimit →
      loop (flat w ++ m) (inside b st t x n start (flat w ++ m)) = loop m (inside (b ++ flat w) st t x n start m) := by
  induction w with
  | nil => intro b m _ _ _; simp [flat]
  | cons c w ih =>
    intro b m hw hs hb
    rw [flat_cons] at hb ⊢
    rw [List.append_assoc, eat st t x n (hw c (by simp)) h1 (hs c (by simp) b _) (by simp at hb ⊢; omega), ih _ _ (fun y hy => hw y (by simp [hy])) (fun y hy => hs y (by simp [hy]))
      (by simp at hb ⊢; omega), List.append_assoc]

theorem body_eats {n : Nat} {w : List Nat} (hbody : Body n w) {t : Option Typ} {x : Nat} {start : List Nat} :
    ∀ (b m : List Nat), (∀ c ∈ w, IsText c) → (b ++ flat w).length ≤ bufferLimit →
      loop (flat w ++ m) (inside b .cmdStr t x 0 start (flat w ++ m)) = loop m (inside (b ++ flat w) .cmdStr t x n start m) := by
  induction hbody with
  | nil => intro b m _ _; simp [flat]
  | @char n w c h hc ih =>
    intro b m hw hb
    rw [flat_append] at hb ⊢
    rw [List.append_assoc]
    have hct : IsText c := hw c (by simp)
    rw [ih _ _ (fun y hy => hw y (by simp [hy])) (by simp at hb ⊢; omega)]
    have e : flat [c] = specUtf8 c := by simp [flat]
    rw [e] at hb ⊢
    obtain ⟨hc1, hc2⟩ := hc
    rw [eat .cmdStr t x n hct (by simp) ?_ (by simpa using hb), List.append_assoc]
    have h27 : c ≠ 27 := by omega
    have h7 : c ≠ 7 := by omega
    show nextCmdStr _ c = _
    unfold nextCmdStr
    rw [if_neg h27, if_neg (by omega), if_pos (by omega), adv_inside hct]
  | @open_ n w h ih =>
    intro b m hw hb
    rw [flat_append] at hb ⊢
    rw [List.append_assoc]
    rw [ih _ _ (fun y hy => hw y (by simp [hy])) (by simp at hb ⊢; omega)]
    have t1 : IsText 27 := by decide
    have t2 : IsText 0x5d := by decide
    have e : flat [27, 0x5d] = specUtf8 27 ++ specUtf8 0x5d := by simp [flat]
    rw [e] at hb ⊢
    rw [List.append_assoc, eat .cmdStr t x (n + 1) t1 (by simp) ?_ (by simp at hb ⊢; omega), eat .cmdStr t x (n + 1) t2 (by simp) ?_ (by simp at hb ⊢; omega)]
    · simp
    · show nextCmdStr _ _ = _
      unfold nextCmdStr
      rw [if_neg (by decide), if_neg (by decide), if_pos (by decide), adv_inside t2]
    · show nextCmdStr _ _ = _
      unfold nextCmdStr
      rw [if_pos (by decide), adv_inside t1]
      have : peek (inside (b ++ flat w) .cmdStr t x n start (specUtf8 93 ++ m)).iter = 0x5d := Doskey.peek_flat t2 m
      simp only [this, if_true]
      rfl
  | @st n w h ih =>
    intro b m hw hb
    rw [flat_append] at hb ⊢
    rw [List.append_assoc]
    rw [ih _ _ (fun y hy => hw y (by simp [hy])) (by simp at hb ⊢; omega)]
    have t1 : IsText 27 := by decide
    have t2 : IsText 0x5c := by decide
    have e : flat [27, 0x5c] = specUtf8 27 ++ specUtf8 0x5c := by simp [flat]
    rw [e] at hb ⊢
    rw [List.append_assoc, eat .cmdStr t x n t1 (by simp) ?_ (by simp at hb ⊢; omega), eat .cmdStr t x n t2 (by simp) ?_ (by simp at hb ⊢; omega)]
    · simp
    · show nextCmdStr _ _ = _
      unfold nextCmdStr
      rw [if_neg (by decide), if_neg (by decide), if_pos (by decide), adv_inside t2]
    · show nextCmdStr _ _ = _
      unfold nextCmdStr
      rw [if_pos (by decide), adv_inside t1]
      have : peek (inside (b ++ flat w) .cmdStr t x (n + 1) start (specUtf8 92 ++ m)).iter = 0x5c := Doskey.peek_flat t2 m
      simp only [this]
      rw [if_neg (by decide), if_pos ⟨trivial, by simp [inside]⟩]
      rfl
  | @bel n w h ih =>
    intro b m hw hb
    rw [flat_append] at hb ⊢
    rw [List.append_assoc]
    rw [ih _ _ (fun y hy => hw y (by simp [hy])) (by simp at hb ⊢; omega)]
    have t1 : IsText 7 := by decide
    have e : flat [7] = specUtf8 7 := by simp [flat]
    rw [e] at hb ⊢
    rw [eat .cmdStr t x n t1 (by simp) ?_ (by simpa using hb)]
    · simp
    · show nextCmdStr _ _ = _
      unfold nextCmdStr
      rw [if_neg (by decide), if_pos (by decide), if_pos ⟨rfl, by simp [inside]⟩, adv_inside t1]
      rfl

/-- The type of a code. -/
def typ : Kind → Typ
  | .chars => .chars
  | .c0 => .c0
  | .c1 => .c1
  | .icf => .icf

/-- What the first step into a code does to a fresh state. -/
theorem first_eat (st' : St) (t' : Option Typ) (x' : Nat) {s : State} (hf : Fresh s) {m : List Nat} {c : Nat} (hc : IsText c) (h1 : st' ≠ .char)
    (hs : step ⟨s, specUtf8 c ++ m, specUtf8 c ++ m, 0⟩ c = (false, ⟨⟨st', s.buffer, true, t', x'⟩, m, specUtf8 c ++ m, 0⟩))
    (hb : (specUtf8 c).length ≤ bufferLimit) :
    loop (specUtf8 c ++ m) ⟨s, specUtf8 c ++ m, specUtf8 c ++ m, 0⟩ = loop m (inside (specUtf8 c) st' t' x' 0 (specUtf8 c ++ m) m) := by
  rw [loop_go (i := ⟨s, specUtf8 c ++ m, specUtf8 c ++ m, 0⟩) (Doskey.peek_flat hc m) (by have := hc.1; omega) hs]
  have hk : keep (specUtf8 c ++ m) ⟨⟨st', s.buffer, true, t', x'⟩, m, specUtf8 c ++ m, 0⟩ = (inside (specUtf8 c) st' t' x' 0 (specUtf8 c ++ m) m, m) := by
    simp only [keep, inside, ne_eq, h1, not_false_eq_true, if_true, between_mid, List.nil_append, List.take_of_length_le hb]
  rw [hk]

theorem first_last (st' : St) (t' : Option Typ) (x' : Nat) {s : State} (hf : Fresh s) {m : List Nat} {c : Nat} (hc : IsText c) (h1 : st' ≠ .char)
    (hs : step ⟨s, specUtf8 c ++ m, specUtf8 c ++ m, 0⟩ c = (true, ⟨⟨st', s.buffer, true, t', x'⟩, m, specUtf8 c ++ m, 0⟩))
    (hb : (specUtf8 c).length ≤ bufferLimit) :
    loop (specUtf8 c ++ m) ⟨s, specUtf8 c ++ m, specUtf8 c ++ m, 0⟩ = (true, inside (specUtf8 c) st' t' x' 0 (specUtf8 c ++ m) m) := by
  rw [loop_done (i := ⟨s, specUtf8 c ++ m, specUtf8 c ++ m, 0⟩) (Doskey.peek_flat hc m) (by have := hc.1; omega) hs]
  have hk : keep (specUtf8 c ++ m) ⟨⟨st', s.buffer, true, t', x'⟩, m, specUtf8 c ++ m, 0⟩ = (inside (specUtf8 c) st' t' x' 0 (specUtf8 c ++ m) m, m) := by
    simp only [keep, inside, ne_eq, h1, not_false_eq_true, if_true, between_mid, List.nil_append, List.take_of_length_le hb]
  rw [hk]

theorem esc_first {s : State} (hf : Fresh s) (m : List Nat) :
    loop (specUtf8 27 ++ m) ⟨s, specUtf8 27 ++ m, specUtf8 27 ++ m, 0⟩ = loop m (inside (specUtf8 27) .esc s.typ s.code 0 (specUtf8 27 ++ m) m) := by
  have t1 : IsText 27 := by decide
  refine first_eat .esc s.typ s.code hf t1 (by simp) ?_ (by decide)
  obtain ⟨st, b, cl, t, x⟩ := s
  obtain ⟨rfl, rfl⟩ := hf
  show nextUnknown _ 27 = _
  unfold nextUnknown
  rw [if_pos rfl]
  simp [Iter.adv, Iter.to, Doskey.next_flat t1]

/-- The state after the start of a C1 sequence; `none` if the code is complete. -/
def afterIntro (x : Nat) : Option St :=
  if x = 0x50 ∨ x = 0x5d ∨ x = 0x5e ∨ x = 0x5f then some .cmdStr else if x = 0x5b then some .csiP else if x = 0x58 then some .charStr else none

theorem nextC1_eq {i : Iter} {c x : Nat} (hx : 0x40 ≤ x ∧ x ≤ 0x5f) (hc : c % 32 + 64 = x) :
    nextC1 i c = match afterIntro x with | some st => (false, (i.kind .c1 x).to st) | none => (true, i.kind .c1 x) := by
  unfold nextC1 afterIntro
  simp only [hc]
  by_cases h1 : x = 0x50 ∨ x = 0x5d ∨ x = 0x5e ∨ x = 0x5f
  · simp only [if_pos h1]
  · simp only [if_neg h1]
    by_cases h2 : x = 0x5b
    · simp only [if_pos h2]
    · simp only [if_neg h2]
      by_cases h3 : x = 0x58
      · simp only [if_pos h3]
      · simp only [if_neg h3]

theorem intro_eat {s : State} (hf : Fresh s) {x : Nat} {i : List Nat} (hi : Intro x i) {st : St} (hst : afterIntro x = some st) (hst' : st ≠ .char)
    (m : List Nat) :
    loop (flat i ++ m) ⟨s, flat i ++ m, flat i ++ m, 0⟩ = loop m (inside (flat i) st (some .c1) x 0 (flat i ++ m) m) := by
  obtain ⟨hx1, hx2, rfl | rfl⟩ := hi
  · have t2 : IsText x := ⟨by omega, by omega, by omega⟩
    have e : flat [27, x] = specUtf8 27 ++ specUtf8 x := by simp [flat]
    have hb : (specUtf8 27 ++ specUtf8 x).length ≤ bufferLimit := by
      rw [Doskey.spec_ascii (show x < 128 by omega)]; simp [specUtf8, bufferLimit]
    rw [e, List.append_assoc, esc_first hf, eat st (some .c1) x 0 t2 hst' ?_ hb]
    show nextEsc _ x = _
    unfold nextEsc
    rw [if_pos ⟨hx1, hx2⟩, nextC1_eq ⟨hx1, hx2⟩ (by omega), hst, adv_inside t2]
    rfl
  · have t2 : IsText (x + 0x40) := ⟨by omega, by omega, by omega⟩
    have e : flat [x + 0x40] = specUtf8 (x + 0x40) := by simp [flat]
    have hb : (specUtf8 (x + 0x40)).length ≤ bufferLimit := by
      unfold specUtf8 bufferLimit; repeat' split
      all_goals simp
    rw [e, first_eat st (some .c1) x hf t2 hst' ?_ hb]
    obtain ⟨st0, b, cl, t, y⟩ := s
    obtain ⟨rfl, rfl⟩ := hf
    show nextUnknown _ _ = _
    unfold nextUnknown
    rw [if_neg (by omega), if_neg (by omega), if_pos (by omega), nextC1_eq ⟨hx1, hx2⟩ (by omega), hst]
    simp [Iter.adv, Iter.to, Iter.kind, Doskey.next_flat t2]

theorem intro_last {s : State} (hf : Fresh s) {x : Nat} {i : List Nat} (hi : Intro x i) (hst : afterIntro x = none) (m : List Nat) :
    ∃ st, st ≠ .char ∧ loop (flat i ++ m) ⟨s, flat i ++ m, flat i ++ m, 0⟩ = (true, inside (flat i) st (some .c1) x 0 (flat i ++ m) m) := by
  obtain ⟨hx1, hx2, rfl | rfl⟩ := hi
  · have t2 : IsText x := ⟨by omega, by omega, by omega⟩
    have e : flat [27, x] = specUtf8 27 ++ specUtf8 x := by simp [flat]
    have hb : (specUtf8 27 ++ specUtf8 x).length ≤ bufferLimit := by
      rw [Doskey.spec_ascii (show x < 128 by omega)]; simp [specUtf8, bufferLimit]
    refine ⟨.esc, by simp, ?_⟩
    rw [e, List.append_assoc, esc_first hf, last .esc (some .c1) x 0 t2 (by simp) ?_ hb]
    show nextEsc _ x = _
    unfold nextEsc
    rw [if_pos ⟨hx1, hx2⟩, nextC1_eq ⟨hx1, hx2⟩ (by omega), hst, adv_inside t2]
    rfl
  · have t2 : IsText (x + 0x40) := ⟨by omega, by omega, by omega⟩
    have e : flat [x + 0x40] = specUtf8 (x + 0x40) := by simp [flat]
    have hb : (specUtf8 (x + 0x40)).length ≤ bufferLimit := by
      unfold specUtf8 bufferLimit; repeat' split
      all_goals simp
    refine ⟨.unknown, by simp, ?_⟩
    rw [e, first_last .unknown (some .c1) x hf t2 (by simp) ?_ hb]
    obtain ⟨st0, b, cl, t, y⟩ := s
    obtain ⟨rfl, rfl⟩ := hf
    show nextUnknown _ _ = _
    unfold nextUnknown
    rw [if_neg (by omega), if_neg (by omega), if_pos (by omega), nextC1_eq ⟨hx1, hx2⟩ (by omega), hst]
    simp [Iter.adv, Iter.kind, Doskey.next_flat t2]

/-- A complete code is read to its end, and no further. -/
theorem loop_code {s : State} (hf : Fresh s) {k : Kind} {x : Nat} {w : List Nat} (hcode : Code k x w) (hw : ∀ c ∈ w, IsText c)
    (hb : (flat w).length ≤ bufferLimit) (m : List Nat) :
    ∃ st n, st ≠ .char ∧ loop (flat w ++ m) ⟨s, flat w ++ m, flat w ++ m, 0⟩ = (true, inside (flat w) st (some (typ k)) x n (flat w ++ m) m) := by
  cases hcode with
  | c0 h1 h2 h3 =>
    have t1 : IsText x := hw x (by simp)
    have e : flat [x] = specUtf8 x := by simp [flat]
    rw [e] at hb ⊢
    refine ⟨.unknown, 0, by simp, first_last .unknown (some .c0) x hf t1 (by simp) ?_ hb⟩
    obtain ⟨st0, b, cl, t, y⟩ := s
    obtain ⟨rfl, rfl⟩ := hf
    show nextUnknown _ _ = _
    unfold nextUnknown
    rw [if_neg h3, if_pos (by omega)]
    simp [Iter.adv, Iter.kind, Doskey.next_flat t1, typ]
  | icf h1 h2 =>
    have t1 : IsText x := hw x (by simp)
    have e : flat [27, x] = specUtf8 27 ++ specUtf8 x := by simp [flat]
    rw [e] at hb ⊢
    refine ⟨.esc, 0, by simp, ?_⟩
    rw [List.append_assoc, esc_first hf, last .esc (some .icf) x 0 t1 (by simp) ?_ hb]
    · rfl
    show nextEsc _ _ = _
    unfold nextEsc
    rw [if_neg (by omega), if_pos ⟨h1, h2⟩, adv_inside t1]
    rfl
  | c1 h1 h2 h3 h4 =>
    obtain ⟨st, hst, h⟩ := intro_last hf h1 (by simp only [afterIntro, if_neg h3, if_neg h4]; unfold IsCmd at h2; rw [if_neg h2]) m
    exact ⟨st, 0, hst, h⟩
  | @csi i ps is f h1 hps his hfin =>
    have tf : IsText f := hw f (by simp)
    have e : flat (i ++ ps ++ is ++ [f]) ++ m = flat i ++ (flat ps ++ (flat is ++ (specUtf8 f ++ m))) := by simp [flat]
    have hbl : (flat i).length + ((flat ps).length + ((flat is).length + (specUtf8 f).length)) ≤ bufferLimit := by
      simpa [flat_append, flat] using hb
    rw [e, intro_eat hf h1 (st := .csiP) (by decide) (by simp), eats (by simp) ps _ _ (fun c hc => hw c (by simp [hc])) ?_ (by simp; omega)]
    · refine ⟨.csiF, 0, by simp, ?_⟩
      cases is with
      | nil =>
        have e2 : flat [] ++ (specUtf8 f ++ m) = specUtf8 f ++ m := rfl
        rw [e2, last .csiF (some .c1) 0x5b 0 tf (by simp) ?_ (by simp; omega)]
        · simp [flat_append, typ, flat]
        · show nextCsiP _ _ = _
          unfold nextCsiP nextCsiF
          unfold Final at hfin
          rw [if_neg (by omega), if_neg (by omega), if_pos hfin]
          rw [to_inside, adv_inside tf]
      | cons c is =>
        have tc : IsText c := hw c (by simp)
        have hm := his c (by simp)
        unfold Middle at hm
        have e2 : flat (c :: is) ++ (specUtf8 f ++ m) = specUtf8 c ++ (flat is ++ (specUtf8 f ++ m)) := by simp [flat]
        have hbl2 := hbl
        rw [flat_cons, List.length_append] at hbl2
        rw [e2, eat .csiF (some .c1) 0x5b 0 tc (by simp) ?_ (by simp; omega)]
        · have hF2 : ∀ (b : List Nat), (b ++ (flat is ++ specUtf8 f)).length ≤ bufferLimit → ∀ start, loop (flat is ++ (specUtf8 f ++ m)) (inside b .csiF (some .c1) 0x5b 0 start (flat is ++ (specUtf8 f ++ m))) =
              (true, inside (b ++ (flat is ++ specUtf8 f)) .csiF (some .c1) 0x5b 0 start m) := by
            intro b hb start
            rw [eats (by simp) is _ _ (fun c hc => hw c (by simp [hc])) ?_ (by simp at hb ⊢; omega), last .csiF (some .c1) 0x5b 0 tf (by simp) ?_ (by simp at hb ⊢; omega),
              List.append_assoc]
            · show nextCsiF _ _ = _
              unfold nextCsiF
              unfold Final at hfin
              rw [if_neg (by omega), if_pos hfin, adv_inside tf]
            · intro c hc b m
              have := his c (by simp [hc])
              show nextCsiF _ _ = _
              unfold nextCsiF
              unfold Middle at this
              rw [if_pos this, adv_inside (hw c (by simp [hc]))]
          rw [hF2 _ (by simp; omega)]
          simp [flat_append, flat, typ]
        · show nextCsiP _ _ = _
          unfold nextCsiP nextCsiF
          rw [if_neg (by omega), if_pos hm]
          rw [to_inside, adv_inside tc]
    · intro c hc b m
      have := hps c hc
      unfold Param at this
      show nextCsiP _ _ = _
      unfold nextCsiP
      rw [if_pos this, adv_inside (hw c (by simp [hc]))]
  | @sos i b t h1 hb1 hb2 ht =>
    have e : flat (i ++ b ++ t) ++ m = flat i ++ (flat b ++ (flat t ++ m)) := by simp [flat]
    have hbl : (flat i).length + ((flat b).length + (flat t).length) ≤ bufferLimit := by simpa [flat_append] using hb
    rw [e, intro_eat hf h1 (st := .charStr) (by decide) (by simp), eats (by simp) b _ _ (fun c hc => hw c (by simp [hc])) ?_ (by simp; omega)]
    · rcases ht with rfl | rfl
      · have tc : IsText 0x9c := by decide
        have e2 : flat [0x9c] = specUtf8 0x9c := by simp [flat]
        rw [e2] at hbl ⊢
        refine ⟨.charStr, 0, by simp, ?_⟩
        rw [last .charStr (some .c1) 0x58 0 tc (by simp) ?_ (by simp; omega)]
        · simp [flat_append, typ, flat]
        · show nextCharStr _ _ = _
          unfold nextCharStr
          rw [if_neg (by decide), adv_inside tc]; rfl
      · have t1 : IsText 27 := by decide
        have t2 : IsText 0x5c := by decide
        have e2 : flat [27, 0x5c] = specUtf8 27 ++ specUtf8 0x5c := by simp [flat]
        rw [e2, List.length_append] at hbl
        rw [e2, List.append_assoc]
        refine ⟨.escSt, 0, by simp, ?_⟩
        rw [eat .escSt (some .c1) 0x58 0 t1 (by simp) ?_ (by simp; omega), last .escSt (some .c1) 0x58 0 t2 (by simp) ?_ (by simp; omega)]
        · simp [flat_append, typ, flat]
        · show nextEscSt _ _ = _
          unfold nextEscSt
          rw [if_pos rfl, adv_inside t2]
        · show nextCharStr _ _ = _
          unfold nextCharStr
          rw [if_pos (by decide), adv_inside t1]; rfl
    · intro c hc b m
      have h27 : c ≠ 27 := by rintro rfl; exact hb1 hc
      have h9 : c ≠ 0x9c := by rintro rfl; exact hb2 hc
      show nextCharStr _ _ = _
      unfold nextCharStr
      rw [if_neg h27, adv_inside (hw c (by simp [hc]))]
      simp [h9]
  | @cmd _ i n b t h1 hx hbody ht =>
    have e : flat (i ++ b ++ t) ++ m = flat i ++ (flat b ++ (flat t ++ m)) := by simp [flat]
    have hbl : (flat i).length + ((flat b).length + (flat t).length) ≤ bufferLimit := by simpa [flat_append] using hb
    unfold IsCmd at hx
    rw [e, intro_eat hf h1 (st := .cmdStr) (by unfold afterIntro; rw [if_pos hx]) (by simp),
      body_eats hbody _ _ (fun c hc => hw c (by simp [hc])) (by simp; omega)]
    rcases ht with rfl | ⟨rfl, rfl | rfl⟩
    · have tc : IsText 0x9c := by decide
      have e2 : flat [0x9c] = specUtf8 0x9c := by simp [flat]
      rw [e2] at hbl ⊢
      refine ⟨.cmdStr, n, by simp, ?_⟩
      rw [last .cmdStr (some .c1) x n tc (by simp) ?_ (by simp; omega)]
      · simp [flat_append, typ, flat]
      · show nextCmdStr _ _ = _
        unfold nextCmdStr
        rw [if_neg (by decide), if_pos (by decide), if_neg (by simp), adv_inside tc]
    · have tc : IsText 7 := by decide
      have e2 : flat [7] = specUtf8 7 := by simp [flat]
      rw [e2] at hbl ⊢
      refine ⟨.cmdStr, 0, by simp, ?_⟩
      rw [last .cmdStr (some .c1) x 0 tc (by simp) ?_ (by simp; omega)]
      · simp [flat_append, typ, flat]
      · show nextCmdStr _ _ = _
        unfold nextCmdStr
        rw [if_neg (by decide), if_pos (by decide), if_neg (by simp [inside]), adv_inside tc]
    · have t1 : IsText 27 := by decide
      have t2 : IsText 0x5c := by decide
      have e2 : flat [27, 0x5c] = specUtf8 27 ++ specUtf8 0x5c := by simp [flat]
      rw [e2, List.length_append] at hbl
      rw [e2, List.append_assoc]
      refine ⟨.escSt, 0, by simp, ?_⟩
      rw [eat .escSt (some .c1) x 0 t1 (by simp) ?_ (by simp; omega), last .escSt (some .c1) x 0 t2 (by simp) ?_ (by simp; omega)]
      · simp [flat_append, typ, flat]
      · show nextEscSt _ _ = _
        unfold nextEscSt
        rw [if_pos rfl, adv_inside t2]
      · show nextCmdStr _ _ = _
        unfold nextCmdStr
        rw [if_pos (by decide), adv_inside t1]
        have : peek (inside (flat i ++ flat b) .cmdStr (some .c1) x 0 (flat i ++ (flat b ++ (specUtf8 27 ++ (specUtf8 92 ++ m)))) (specUtf8 92 ++ m)).iter = 0x5c :=
          Doskey.peek_flat t2 m
        simp only [this]
        rw [if_neg (by decide), if_neg (by simp [inside])]
        rfl

theorem code_ne {k : Kind} {x : Nat} {w : List Nat} (h : Code k x w) : w ≠ [] := by
  have := code_special h
  obtain ⟨c, r, rfl, -⟩ := this
  simp

theorem spec_pos (c : Nat) : 0 < (specUtf8 c).length := by
  unfold specUtf8; repeat' split
  all_goals simp

theorem flat_ne {w : List Nat} (h : w ≠ []) : flat w ≠ [] := by
  cases w with
  | nil => exact absurd rfl h
  | cons c w =>
    rw [flat_cons]
    have hp := spec_pos c
    intro h2
    rw [(List.append_eq_nil_iff.1 h2).1] at hp
    simp at hp

theorem next_code {s : State} (hf : Fresh s) {k : Kind} {x : Nat} {w : List Nat} (hcode : Code k x w) (hw : ∀ c ∈ w, IsText c)
    (hb : (flat w).length ≤ bufferLimit) (m : List Nat) :
    ∃ s', Fresh s' ∧ nextCode s 0 (flat w ++ m) = (some ⟨flat w, some (typ k), x⟩, s', 0, m) := by
  obtain ⟨st, n, hst, h⟩ := loop_code hf hcode hw hb m
  refine ⟨⟨.unknown, flat w, true, some (typ k), x⟩, ⟨rfl, rfl⟩, ?_⟩
  unfold nextCode
  rw [h]
  simp only [inside, if_true, ne_eq, hst, not_false_eq_true, flat_ne (code_ne hcode), if_false]
  rfl

theorem loop_run (w : List Nat) : ∀ (copy start m b : List Nat) (cl : Bool) (x n : Nat), (∀ c ∈ w, IsText c) → (∀ c ∈ w, 0x20 ≤ c) →
    (peek m = 0 ∨ peek m < 0x20) →
    loop copy ⟨⟨.char, b, cl, some .chars, x⟩, flat w ++ m, start, n⟩ = (true, ⟨⟨.char, b, cl, some .chars, x⟩, m, start, n⟩) := by
  induction w with
  | nil =>
    intro copy start m b cl x n _ _ hm
    by_cases h0 : peek m = 0
    · rw [loop_stop (by simpa [flat] using h0)]; simp [flat]
    · rw [loop_done (c := peek m) (by simp [flat]) h0 (i' := ⟨⟨.char, b, cl, some .chars, x⟩, m, start, n⟩) ?_]
      · simp [keep]
      · show nextChar _ _ = _
        unfold nextChar
        rw [if_pos (by omega)]; rfl
  | cons c w ih =>
    intro copy start m b cl x n hw h20 hm
    have tc := hw c (by simp)
    rw [flat_cons, List.append_assoc]
    rw [loop_go (c := c) (Doskey.peek_flat tc _) (by have := tc.1; omega) (i' := ⟨⟨.char, b, cl, some .chars, x⟩, flat w ++ m, start, n⟩) ?_]
    · rw [show keep copy ⟨⟨.char, b, cl, some .chars, x⟩, flat w ++ m, start, n⟩ = (⟨⟨.char, b, cl, some .chars, x⟩, flat w ++ m, start, n⟩, copy) by simp [keep]]
      exact ih _ _ _ _ _ _ _ (fun y hy => hw y (by simp [hy])) (fun y hy => h20 y (by simp [hy])) hm
    · have := h20 c (by simp)
      show nextChar _ _ = _
      unfold nextChar
      rw [if_neg (by omega)]
      simp [Iter.adv, Doskey.next_flat tc]

theorem next_text {s : State} (hf : Fresh s) {w : List Nat} (hne : w ≠ []) (hw : ∀ c ∈ w, IsText c) (hp : ∀ c ∈ w, Printable c)
    (hb : (flat w).length ≤ bufferLimit) {m : List Nat} (hm : peek m = 0 ∨ peek m < 0x20) :
    ∃ s', Fresh s' ∧ nextCode s 0 (flat w ++ m) = (some ⟨flat w, some .chars, s.code⟩, s', 0, m) := by
  obtain ⟨st, b, cl, t, x⟩ := s
  obtain ⟨rfl, rfl⟩ := hf
  cases w with
  | nil => exact absurd rfl hne
  | cons c w =>
    have tc := hw c (by simp)
    have pc := hp c (by simp)
    unfold Printable at pc
    have hl : loop (flat (c :: w) ++ m) ⟨⟨.unknown, b, true, t, x⟩, flat (c :: w) ++ m, flat (c :: w) ++ m, 0⟩ =
        (true, ⟨⟨.char, b, true, some .chars, x⟩, m, flat (c :: w) ++ m, 0⟩) := by
      rw [flat_cons, List.append_assoc]
      rw [loop_go (c := c) (Doskey.peek_flat tc _) (by omega) (i' := ⟨⟨.char, b, true, some .chars, x⟩, flat w ++ m, specUtf8 c ++ (flat w ++ m), 0⟩) ?_]
      · rw [show keep (specUtf8 c ++ (flat w ++ m)) ⟨⟨.char, b, true, some .chars, x⟩, flat w ++ m, specUtf8 c ++ (flat w ++ m), 0⟩ =
          (⟨⟨.char, b, true, some .chars, x⟩, flat w ++ m, specUtf8 c ++ (flat w ++ m), 0⟩, specUtf8 c ++ (flat w ++ m)) by simp [keep]]
        exact loop_run w _ _ _ _ _ _ _ (fun y hy => hw y (by simp [hy])) (fun y hy => (hp y (by simp [hy])).1) hm
      · show nextUnknown _ _ = _
        unfold nextUnknown
        rw [if_neg (by omega), if_neg (by omega), if_neg pc.2]
        simp [Iter.adv, Doskey.next_flat tc]
    refine ⟨⟨.unknown, b, true, some .chars, x⟩, ⟨rfl, rfl⟩, ?_⟩
    unfold nextCode
    rw [hl]
    have hlen : (flat (c :: w) ++ m).length - m.length = (flat (c :: w)).length := by simp
    have hmod : (flat (c :: w)).length % 65536 = (flat (c :: w)).length := Nat.mod_eq_of_lt (by unfold bufferLimit at hb; omega)
    simp only [if_true, ne_eq, not_true_eq_false, if_false, hlen, hmod, List.take_left, flat_ne (List.cons_ne_nil c w)]
    rfl

end Clink.Ecma48
