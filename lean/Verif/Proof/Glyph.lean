import Mathlib.Tactic.Tauto
import Verif.Spec.Ellipsify
import Verif.Proof.EcmaCodes

/-!
The characters that `wcwidth_iter` finds.
-/

namespace Clink.Ellipsify

open Utf (IsText specUtf8)
open Doskey (peek next between)
open Doskey.Spec (flat)
open Ecma48 (flat_cons flat_append)
open Spec

variable {env : Env}

theorem peek_nil : peek (flat []) = 0 := rfl
theorem next_nil : next (flat []) = [] := rfl

theorem peek_cons {c : Nat} {r : List Nat} (h : IsText c) : peek (flat (c :: r)) = c := Doskey.peek_flat h _
theorem next_cons {c : Nat} {r : List Nat} (h : IsText c) : next (flat (c :: r)) = flat r := Doskey.next_flat h _

theorem emojiSeq_zero (b : Bool) : emojiSeq env b [] = (b, []) := by rw [emojiSeq]; simp [show peek [] = 0 from rfl]

theorem emojiSeq_go {w rest : List Nat} (h : Sequence env w rest) : (∀ c ∈ w ++ rest, IsText c) → ∀ b,
    emojiSeq env b (flat (w ++ rest)) = (b || !w.isEmpty, flat rest) := by
  induction h with
  | @stop rest hs =>
    intro ht b
    cases rest with
    | nil => rw [emojiSeq]; simp [flat, show peek [] = 0 from rfl]
    | cons c r =>
      have tc := ht c (by simp)
      have h1 : ¬ (env.variant c = true ∨ c = 0x200d) := fun h => hs ⟨c, rfl, h⟩
      rw [List.nil_append, emojiSeq, peek_cons tc]
      have := tc.1
      rw [dif_neg (by omega), if_neg (fun h => h1 (.inl h)), if_neg (fun h => h1 (.inr h))]
      simp
  | @selector c w rest hv h ih =>
    intro ht b
    have tc := ht c (by simp)
    rw [List.cons_append, emojiSeq, peek_cons tc, next_cons tc]
    have := tc.1
    rw [dif_neg (by omega), if_pos hv, ih (fun y hy => ht y (by simp at hy ⊢; tauto))]
    simp
  | @joined c w rest hv hj h ih =>
    intro ht b
    have tz : IsText 0x200d := by decide
    have tc := ht c (by simp)
    rw [List.cons_append, List.cons_append, emojiSeq, peek_cons tz, next_cons tz]
    rw [dif_neg (by decide), if_neg hv, if_pos rfl]
    simp only [peek_cons tc, next_cons tc]
    have : (env.emoji c || env.unq c || c == 0x2640 || c == 0x2642) = true := by
      unfold Joined at hj; simp; tauto
    simp only [this, if_true]
    rw [ih (fun y hy => ht y (by simp at hy ⊢; tauto))]
    simp
  | @joiner rest hv hj =>
    intro ht b
    have tz : IsText 0x200d := by decide
    rw [List.cons_append, List.nil_append, emojiSeq, peek_cons tz, next_cons tz]
    rw [dif_neg (by decide), if_neg hv, if_pos rfl]
    cases rest with
    | nil =>
      simp only [peek_nil, next_nil, emojiSeq_zero]
      split <;> simp [flat]
    | cons c r =>
      have tc := ht c (by simp)
      have h1 : ¬ Joined env c := fun h => hj ⟨c, rfl, h⟩
      have : (env.emoji c || env.unq c || c == 0x2640 || c == 0x2642) = false := by
        unfold Joined at h1; simp; simp at h1; tauto
      simp only [peek_cons tc, this]
      simp

theorem zeros_go (w : List Nat) {rest : List Nat} : (∀ z ∈ w, Extends env z) → ¬ Starts (Extends env) rest → (∀ c ∈ w ++ rest, IsText c) → ∀ b,
    zeros env b (flat (w ++ rest)) = (b || w.any (fun z => decide (env.wc z ≠ 0)), flat rest) := by
  induction w with
  | nil =>
    intro _ hr ht b
    rw [List.nil_append, zeros]
    cases rest with
    | nil => simp [flat, show peek [] = 0 from rfl]
    | cons c r =>
      have tc := ht c (by simp)
      have h1 : ¬ Extends env c := fun h => hr ⟨c, rfl, h⟩
      unfold Extends at h1
      have := tc.1
      rw [peek_cons tc, dif_neg (by omega), if_neg (fun h => h1 (.inl h)), if_neg (fun h => h1 (.inr (by simpa using h)))]
      simp
  | cons c w ih =>
    intro hw hr ht b
    have tc := ht c (by simp)
    have he := hw c (by simp)
    have := tc.1
    rw [List.cons_append, zeros, peek_cons tc, next_cons tc, dif_neg (by omega)]
    by_cases h0 : env.wc c = 0
    · rw [if_pos h0, ih (fun z hz => hw z (by simp [hz])) hr (fun y hy => ht y (by simp at hy ⊢; tauto))]
      simp [h0]
    · have h2 : (env.color && env.variant c) = true := by
        rcases he with h | h
        · exact absurd h h0
        · simpa using h
      rw [if_neg h0, if_pos h2, ih (fun z hz => hw z (by simp [hz])) hr (fun y hy => ht y (by simp at hy ⊢; tauto))]
      simp [h0]

theorem flag_iff (c : Nat) : flag c = true ↔ Flag c := by simp [flag, Flag]

theorem flag_starts {l : List Nat} (ht : ∀ c ∈ l, IsText c) : flag (peek (flat l)) = true ↔ Starts Flag l := by
  cases l with
  | nil => simp [peek_nil, flag, Starts]
  | cons c r =>
    rw [peek_cons (ht c (by simp)), flag_iff]
    simp [Starts]

theorem always_iff (c : Nat) : always c = true ↔ c ∈ [0x3030, 0x303d, 0x3297, 0x3299] := by simp [always, or_assoc]

/-- The tables say nothing about the end of the text. -/
def Tables (env : Env) : Prop := env.variant 0 = false

theorem oneRun_go (hz : env.variant 0 = false) {w rest : List Nat} {n : Int} (h : Glyph env w rest n) (ht : ∀ c ∈ w ++ rest, IsText c) :
    oneRun env (flat (w ++ rest)) = (n, flat rest) := by
  cases h with
  | @ctrl c _ hc =>
    have tc := ht c (by simp)
    unfold oneRun
    simp only [List.cons_append, List.nil_append, peek_cons tc, next_cons tc, if_pos hc]
  | @flags c d _ hcol hw hc hd =>
    have tc := ht c (by simp)
    have td := ht d (by simp)
    unfold oneRun
    simp only [List.cons_append, List.nil_append, peek_cons tc, next_cons tc, peek_cons td, next_cons td]
    rw [if_neg (by omega), if_pos (by simp [hcol]; omega), if_pos (by simp [(flag_iff c).2 hc, (flag_iff d).2 hd])]
  | @emoji c w _ _ hcol hw hf he hs hn1 hn2 =>
    have tc := ht c (by simp)
    have ht' : ∀ c ∈ w ++ rest, IsText c := fun y hy => ht y (by simp at hy ⊢; tauto)
    unfold oneRun
    simp only [List.cons_append, peek_cons tc, next_cons tc]
    rw [if_neg (by omega), if_pos (by simp [hcol]; omega)]
    rw [if_neg (by
      intro h
      rw [Bool.and_eq_true, flag_iff, flag_starts ht'] at h
      exact hf h)]
    by_cases hue : (env.unq c || env.emoji c) = true
    · have hue' : env.emoji c = true ∨ env.unq c = true := by simpa [or_comm] using hue
      rw [if_pos hue]
      by_cases hv : (env.unq c && env.variant (peek (flat (w ++ rest)))) = true
      · rw [if_pos hv]
        rw [Bool.and_eq_true] at hv
        -- the sequence begins with the selector
        have hvar := hv.2
        cases hs with
        | stop hstop =>
          exfalso
          cases rest with
          | nil => rw [List.nil_append, peek_nil, hz] at hvar; simp at hvar
          | cons d r =>
            rw [List.nil_append, peek_cons (ht' d (by simp))] at hvar
            exact hstop ⟨d, rfl, .inl hvar⟩
        | @selector d w' _ hd hs' =>
          rw [List.cons_append, next_cons (ht' d (by simp)), emojiSeq_go hs' (fun y hy => ht' y (by simp at hy ⊢; tauto))]
          simp [widen, hn1]
        | @joined d w' _ hvz hj hs' =>
          exfalso
          rw [List.cons_append, peek_cons (by decide)] at hvar
          exact hvz hvar
        | joiner hvz hj =>
          exfalso
          rw [List.cons_append, peek_cons (by decide)] at hvar
          exact hvz hvar
      · rw [if_neg hv, emojiSeq_go hs ht']
        unfold widen
        by_cases ha : always c = true
        · simp only [ha, Bool.true_or, if_true]
          rw [hn1 (.inr (.inl ((always_iff c).1 ha)))]
        · cases w with
          | nil =>
            have ha' : always c = false := by simpa using ha
            simp only [ha', List.isEmpty_nil, Bool.not_true, Bool.or_self]
            rw [hn2 rfl (fun h => ha ((always_iff c).2 h)) hue']
            rfl
          | cons d w' =>
            rw [hn1 (.inl (by simp))]
            simp
    · have hue' : ¬ (env.emoji c = true ∨ env.unq c = true) := by
        intro h; apply hue; simp; tauto
      rw [if_neg hue]
      have hv : env.variant c = true := by tauto
      rw [if_pos hv, emojiSeq_go hs ht', hn1 (.inr (.inr hue'))]
      simp [widen]
  | @plain c w _ _ h0 hp hw hr hn1 hn2 =>
    have tc := ht c (by simp)
    have ht' : ∀ c ∈ w ++ rest, IsText c := fun y hy => ht y (by simp at hy ⊢; tauto)
    have hz : widen (env.wc c) (zeros env false (flat (w ++ rest))) = (n, flat rest) := by
      rw [zeros_go w hw hr ht']
      unfold widen
      by_cases ha : ∃ z ∈ w, env.wc z ≠ 0
      · rw [hn1 ha]
        have : w.any (fun z => decide (env.wc z ≠ 0)) = true := by simpa using ha
        rw [this]; simp
      · have ha' : ∀ z ∈ w, env.wc z = 0 := by
          intro z hz; by_cases h : env.wc z = 0
          · exact h
          · exact absurd ⟨z, hz, h⟩ ha
        rw [hn2 ha']
        have : w.any (fun z => decide (env.wc z ≠ 0)) = false := by simpa using ha'
        rw [this]; simp
    unfold oneRun
    simp only [List.cons_append, peek_cons tc, next_cons tc]
    rw [if_neg (by omega)]
    by_cases hcw : (env.color && env.wc c != 0) = true
    · rw [if_pos hcw]
      have hcw' : env.color = true ∧ env.wc c ≠ 0 := by simpa using hcw
      obtain ⟨h1, h2, h3, h4⟩ := hp hcw'.1 hcw'.2
      rw [if_neg (by
        intro h
        rw [Bool.and_eq_true, flag_iff, flag_starts ht'] at h
        exact h1 h), if_neg (by
        rw [Bool.or_eq_true]
        rintro (h | h)
        · exact h3 h
        · exact h2 h), if_neg h4]
      exact hz
    · rw [if_neg hcw]; exact hz

theorem glyph_ne {w rest : List Nat} {n : Int} (h : Glyph env w rest n) : w ≠ [] := by cases h <;> simp

theorem runs_go (hz : env.variant 0 = false) {cs : List Nat} {gs : List (List Nat × Int)} (h : Glyphs env cs gs) : (∀ c ∈ cs, IsText c) →
    runs env (flat cs) = gs.map fun g => (flat g.1, g.2) := by
  induction h with
  | nil => intro _; rw [runs]; simp [peek_nil]
  | @cons w rest n gs h1 h2 ih =>
    intro ht
    have hne : peek (flat (w ++ rest)) ≠ 0 := by
      have := glyph_ne h1
      cases w with
      | nil => exact absurd rfl this
      | cons c w =>
        have tc := ht c (by simp)
        rw [List.cons_append, peek_cons tc]
        have := tc.1; omega
    rw [runs, dif_neg hne, oneRun_go hz h1 ht]
    simp only [List.map_cons]
    rw [ih (fun c hc => ht c (by simp [hc])), flat_append, Ecma48.between_mid]

/-- Every text has a sequence at its start. -/
theorem sequence_exists : ∀ (k : Nat) (l : List Nat), l.length ≤ k → ∃ w rest, l = w ++ rest ∧ Sequence env w rest
  | _, [], _ => ⟨[], [], rfl, .stop (by simp [Starts])⟩
  | 0, c :: l, h => by simp at h
  | k + 1, c :: l, h => by
    by_cases hv : env.variant c = true
    · obtain ⟨w, rest, rfl, hs⟩ := sequence_exists k l (by simpa using h)
      exact ⟨c :: w, rest, rfl, .selector hv hs⟩
    · by_cases hj : c = 0x200d
      · subst hj
        cases l with
        | nil => exact ⟨[0x200d], [], rfl, .joiner hv (by simp [Starts])⟩
        | cons d l =>
          by_cases hd : Joined env d
          · obtain ⟨w, rest, rfl, hs⟩ := sequence_exists k l (by simp at h; omega)
            exact ⟨0x200d :: d :: w, rest, rfl, .joined hv hd hs⟩
          · exact ⟨[0x200d], d :: l, rfl, .joiner hv (by rintro ⟨x, hx, hx2⟩; simp at hx; subst hx; exact hd hx2)⟩
      · exact ⟨[], c :: l, rfl, .stop (by
          rintro ⟨x, hx, hx2⟩
          simp at hx; subst hx
          rcases hx2 with h | h
          · exact hv h
          · exact hj h)⟩

open Classical in
theorem zeros_exist (l : List Nat) : ∃ w rest, l = w ++ rest ∧ (∀ z ∈ w, Extends env z) ∧ ¬ Starts (Extends env) rest := by
  induction l with
  | nil => exact ⟨[], [], rfl, by simp, by simp [Starts]⟩
  | cons c l ih =>
    by_cases h : Extends env c
    · obtain ⟨w, rest, rfl, h1, h2⟩ := ih
      exact ⟨c :: w, rest, rfl, by simpa using ⟨h, h1⟩, h2⟩
    · exact ⟨[], c :: l, rfl, by simp, by rintro ⟨x, hx, hx2⟩; simp at hx; subst hx; exact h hx2⟩

open Classical in
theorem glyph_exists (c : Nat) (l : List Nat) : ∃ w rest n, c :: l = w ++ rest ∧ Glyph env w rest n := by
  by_cases h0 : env.wc c < 0
  · exact ⟨[c], l, _, rfl, .ctrl h0⟩
  · have hplain : (env.color = true → env.wc c ≠ 0 → ¬ (Flag c ∧ Starts Flag l) ∧ ¬ env.emoji c = true ∧ ¬ env.unq c = true ∧ ¬ env.variant c = true) →
        ∃ w rest n, c :: l = w ++ rest ∧ Glyph env w rest n := by
      intro hp
      obtain ⟨w, rest, rfl, h1, h2⟩ := zeros_exist (env := env) l
      refine ⟨c :: w, rest, if ∃ z ∈ w, env.wc z ≠ 0 then max (env.wc c) 2 else env.wc c, rfl, .plain (by omega) hp h1 h2 (fun h => if_pos h) (fun h => ?_)⟩
      rw [if_neg]
      rintro ⟨z, hz, hz2⟩
      exact hz2 (h z hz)
    by_cases hcol : env.color = true ∧ env.wc c ≠ 0
    · by_cases hf : Flag c ∧ Starts Flag l
      · obtain ⟨hf1, d, hd, hf2⟩ := hf
        cases l with
        | nil => simp at hd
        | cons e l =>
          simp at hd; subst hd
          exact ⟨[c, e], l, 2, rfl, .flags hcol.1 (by have := hcol.2; omega) hf1 hf2⟩
      · by_cases he : env.emoji c = true ∨ env.unq c = true ∨ env.variant c = true
        · obtain ⟨w, rest, rfl, hs⟩ := sequence_exists (env := env) _ l (Nat.le_refl _)
          refine ⟨c :: w, rest, if w ≠ [] ∨ c ∈ [0x3030, 0x303d, 0x3297, 0x3299] ∨ ¬ (env.emoji c = true ∨ env.unq c = true) then max (env.wc c) 2 else env.wc c,
            rfl, .emoji hcol.1 (by have := hcol.2; omega) hf he hs (fun h => if_pos h) (fun h1 h2 h3 => if_neg ?_)⟩
          rintro (h | h | h)
          · exact h h1
          · exact h2 h
          · exact h h3
        · exact hplain (fun _ _ => ⟨hf, by tauto, by tauto, by tauto⟩)
    · exact hplain (fun h1 h2 => absurd ⟨h1, h2⟩ hcol)

theorem glyphs_exist : ∀ (k : Nat) (l : List Nat), l.length ≤ k → ∃ gs, Glyphs env l gs
  | _, [], _ => ⟨[], .nil⟩
  | 0, c :: l, h => by simp at h
  | k + 1, c :: l, h => by
    obtain ⟨w, rest, n, h1, h2⟩ := glyph_exists (env := env) c l
    have hw := glyph_ne h2
    have hlen := congrArg List.length h1
    have : 0 < w.length := List.length_pos_iff.2 hw
    simp at hlen h
    obtain ⟨gs, hg⟩ := glyphs_exist k rest (by omega)
    rw [h1]
    exact ⟨_, .cons h2 hg⟩

theorem glyphs_text {cs : List Nat} {gs : List (List Nat × Int)} (h : Glyphs env cs gs) : (gs.map (·.1)).flatten = cs := by
  induction h with
  | nil => rfl
  | cons h1 h2 ih => simp [ih]

/-- The text behind a character can be replaced by other text that does not belong to it. -/
theorem sequence_swap {w rest rest' : List Nat} (h : Sequence env w rest)
    (hr : rest'.head? = rest.head? ∨ ∀ c, rest'.head? = some c → Plain env c) : Sequence env w rest' := by
  induction h with
  | stop hs =>
    refine .stop ?_
    rintro ⟨c, hc, hc2⟩
    rcases hr with hr | hr
    · exact hs ⟨c, by rw [← hr]; exact hc, hc2⟩
    · have := hr c hc
      rcases hc2 with h | h
      · exact this.variant h
      · exact this.joiner h
  | selector hv h ih => exact .selector hv (ih hr)
  | joined hv hj h ih => exact .joined hv hj (ih hr)
  | joiner hv hj =>
    refine .joiner hv ?_
    rintro ⟨c, hc, hc2⟩
    rcases hr with hr | hr
    · exact hj ⟨c, by rw [← hr]; exact hc, hc2⟩
    · have := hr c hc
      rcases hc2 with h | h | h | h
      · exact this.emoji h
      · exact this.unq h
      · exact this.sign.1 h
      · exact this.sign.2 h

theorem starts_swap {p : Nat → Prop} (hp : ∀ c, Plain env c → ¬ p c) {w rest rest' : List Nat} (h : ¬ Starts p (w ++ rest))
    (hr : rest'.head? = rest.head? ∨ ∀ c, rest'.head? = some c → Plain env c) : ¬ Starts p (w ++ rest') := by
  cases w with
  | cons c w =>
    rintro ⟨x, hx, hx2⟩
    exact h ⟨x, by simpa using hx, hx2⟩
  | nil =>
    rintro ⟨c, hc, hc2⟩
    rcases hr with hr | hr
    · exact h ⟨c, by rw [List.nil_append, ← hr]; exact hc, hc2⟩
    · exact hp c (hr c hc) hc2

theorem plain_not_extends {c : Nat} (h : Plain env c) : ¬ Extends env c := by
  rintro (h1 | h1)
  · have := h.wide; omega
  · exact h.variant h1.2

theorem glyph_swap {w rest rest' : List Nat} {n : Int} (h : Glyph env w rest n)
    (hr : rest'.head? = rest.head? ∨ ∀ c, rest'.head? = some c → Plain env c) : Glyph env w rest' n := by
  cases h with
  | ctrl h => exact .ctrl h
  | flags h1 h2 h3 h4 => exact .flags h1 h2 h3 h4
  | emoji h1 h2 h3 h4 h5 h6 h7 =>
    refine .emoji h1 h2 ?_ h4 (sequence_swap h5 hr) h6 h7
    rintro ⟨hf, hs⟩
    exact starts_swap (fun c hc => hc.flag) (fun h => h3 ⟨hf, h⟩) hr hs
  | plain h1 h2 h3 h4 h5 h6 =>
    refine .plain h1 ?_ h3 (starts_swap (w := []) (fun c hc => plain_not_extends hc) h4 hr) h5 h6
    intro ha hb
    obtain ⟨g1, g2⟩ := h2 ha hb
    refine ⟨?_, g2⟩
    rintro ⟨hf, hs⟩
    exact starts_swap (fun c hc => hc.flag) (fun h => g1 ⟨hf, h⟩) hr hs

/-- Plain characters one by one. -/
def singles (env : Env) (e : List Nat) : List (List Nat × Int) := e.map fun c => ([c], env.wc c)

theorem plain_glyph {c : Nat} (h : Plain env c) {rest : List Nat} (hr : ¬ Starts (Extends env) rest) : Glyph env [c] rest (env.wc c) := by
  have := h.wide
  refine .plain (by omega) (fun _ _ => ⟨fun hf => h.flag hf.1, h.emoji, h.unq, h.variant⟩) (by simp) hr (by simp) (by simp)

theorem not_starts_plain {e : List Nat} (he : ∀ c ∈ e, Plain env c) : ¬ Starts (Extends env) e := by
  rintro ⟨c, hc, hc2⟩
  cases e with
  | nil => simp at hc
  | cons d e =>
    simp at hc; subst hc
    exact plain_not_extends (he d (by simp)) hc2

theorem glyphs_plain (e : List Nat) (he : ∀ c ∈ e, Plain env c) : Glyphs env e (singles env e) := by
  induction e with
  | nil => exact .nil
  | cons c e ih =>
    have he' : ∀ c ∈ e, Plain env c := fun x hx => he x (by simp [hx])
    exact .cons (w := [c]) (plain_glyph (he c (by simp)) (not_starts_plain he')) (ih he')

/-- Some characters of a text, and then plain characters. -/
theorem glyphs_prefix (g1 : List (List Nat × Int)) : ∀ {cs : List Nat} {g2 : List (List Nat × Int)} {e : List Nat}, Glyphs env cs (g1 ++ g2) →
    (∀ c ∈ e, Plain env c) → Glyphs env ((g1.map (·.1)).flatten ++ e) (g1 ++ singles env e) := by
  induction g1 with
  | nil => intro cs g2 e _ he; exact glyphs_plain e he
  | cons g g1 ih =>
    intro cs g2 e h he
    rw [List.cons_append] at h
    cases h with
    | @cons w rest n _ h1 h2 =>
      have ih' := ih h2 he
      have e1 : (((w, n) :: g1).map (·.1)).flatten ++ e = w ++ ((g1.map (·.1)).flatten ++ e) := by simp
      rw [e1, List.cons_append]
      refine .cons (glyph_swap h1 ?_) ih'
      cases g1 with
      | nil =>
        right
        intro c hc
        simp at hc
        exact he c (List.mem_of_mem_head? hc)
      | cons g' g1 =>
        left
        rw [List.cons_append] at h2
        cases h2 with
        | @cons w' rest' n' _ h3 h4 =>
          have := glyph_ne h3
          cases w' with
          | nil => exact absurd rfl this
          | cons c w' => simp

def cellsOf (expand : Bool) (gs : List (List Nat × Int)) : Int := (gs.map fun g => clen expand g.2).sum

/-- A plain character before a text without selectors. -/
theorem glyphs_push (expand : Bool) {p : Nat} (hp : Plain env p) {cs : List Nat} {gs : List (List Nat × Int)} (h : Glyphs env cs gs) (hv : NoVariant env cs) :
    ∃ gs', Glyphs env (p :: cs) gs' ∧ cellsOf expand gs' = clen expand (env.wc p) + cellsOf expand gs := by
  open Classical in
  by_cases hs : Starts (Extends env) cs
  · cases h with
    | nil => simp [Starts] at hs
    | @cons w rest n gs h1 h2 =>
      obtain ⟨c, hc, hc2⟩ := hs
      have hw := glyph_ne h1
      have hcw : w.head? = some c := by
        cases w with
        | nil => exact absurd rfl hw
        | cons d w => simpa using hc
      have hcm : c ∈ w ++ rest := List.mem_append_left _ (List.mem_of_mem_head? hcw)
      have hwc : env.wc c = 0 := by
        rcases hc2 with h | ⟨h, h3⟩
        · exact h
        · have := hv h c hcm; rw [this] at h3; simp at h3
      cases h1 with
      | ctrl h3 => simp at hcw; subst hcw; omega
      | flags _ h3 _ _ => simp at hcw; subst hcw; omega
      | emoji _ h3 _ _ _ _ _ => simp at hcw; subst hcw; omega
      | @plain d w' _ _ h3 h4 h5 h6 h7 h8 =>
        simp at hcw; subst hcw
        have hall : ∀ z ∈ w', env.wc z = 0 := by
          intro z hz
          rcases h5 z hz with h | ⟨h, h9⟩
          · exact h
          · have := hv h z (by simp [hz]); rw [this] at h9; simp at h9
        have hn := h8 hall
        have hp0 := hp.wide
        refine ⟨(p :: d :: w', env.wc p) :: gs, ?_, ?_⟩
        · refine .cons (w := p :: d :: w') (.plain (by omega) (fun _ _ => ⟨fun hf => hp.flag hf.1, hp.emoji, hp.unq, hp.variant⟩) ?_ h6 ?_ ?_) h2
          · intro z hz
            simp at hz
            rcases hz with rfl | hz
            · exact .inl hwc
            · exact .inl (hall z hz)
          · rintro ⟨z, hz, hz2⟩
            simp at hz
            rcases hz with rfl | hz
            · exact absurd hwc hz2
            · exact absurd (hall z hz) hz2
          · intro _; rfl
        · simp [cellsOf, clen, hn, hwc]
  · exact ⟨([p], env.wc p) :: gs, .cons (w := [p]) (plain_glyph hp hs) h, by simp [cellsOf]⟩

/-- Plain characters before a text without selectors. -/
theorem glyphs_pushes (expand : Bool) (e : List Nat) (he : ∀ c ∈ e, Plain env c) {cs : List Nat} {gs : List (List Nat × Int)} (h : Glyphs env cs gs)
    (hv : NoVariant env cs) : ∃ gs', Glyphs env (e ++ cs) gs' ∧ cellsOf expand gs' = plainWidth env e + cellsOf expand gs := by
  induction e with
  | nil => exact ⟨gs, h, by simp [plainWidth]⟩
  | cons p e ih =>
    have he' : ∀ c ∈ e, Plain env c := fun x hx => he x (by simp [hx])
    obtain ⟨g1, h1, h2⟩ := ih he'
    have hp := he p (by simp)
    obtain ⟨g2, h3, h4⟩ := glyphs_push expand hp h1 (by
      intro hc x hx
      rcases List.mem_append.1 hx with hx | hx
      · have := (he' x hx).variant; simpa using this
      · exact hv hc x hx)
    refine ⟨g2, h3, ?_⟩
    have hw := hp.wide
    rw [h4, h2]
    have : clen expand (env.wc p) = env.wc p := by unfold clen; rw [if_neg (by omega)]
    rw [this]
    simp [plainWidth]; omega

end Clink.Ellipsify
