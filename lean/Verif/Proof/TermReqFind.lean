import Verif.Proof.TermReqCode

/-!
`findCode` goes over what was typed and finds the answer.
-/

namespace Clink.TermReq
open Spec
open Clink.Ecma48 (nextCode State Ready Ends Done At)
open Clink.Utf (IsText specUtf8)
open Clink.Doskey.Spec (flat)
open Clink.Ecma48.Spec (Param Middle Final Printable)

theorem starts_iff (p w : List Nat) : starts p w = true ↔ p <+: w ∨ w <+: p := by
  induction p generalizing w with
  | nil => simp [starts]
  | cons a p ih =>
    cases w with
    | nil => simp [starts]
    | cons b w =>
      unfold starts
      rw [Bool.and_eq_true, ih, beq_iff_eq, List.cons_prefix_cons, List.cons_prefix_cons]
      constructor
      · rintro ⟨rfl, h | h⟩
        · exact Or.inl ⟨rfl, h⟩
        · exact Or.inr ⟨rfl, h⟩
      · rintro (⟨rfl, h⟩ | ⟨rfl, h⟩)
        · exact ⟨rfl, Or.inl h⟩
        · exact ⟨rfl, Or.inr h⟩

theorem isFinal_iff {f : Nat} {l : List Nat} : isFinal (some f) l = true ↔ l.getLast? = some f := by simp [isFinal]

theorem csi_ascii {w : List Nat} (h : Csi w) : ∀ c ∈ w, c < 128 := by
  obtain ⟨ps, is, f, rfl, hp, hi, hf⟩ := h
  intro c hc
  simp only [List.mem_cons, List.mem_append, List.not_mem_nil, or_false] at hc
  rcases hc with rfl | rfl | (hc | hc) | rfl
  · omega
  · omega
  · have := (hp c hc).2; omega
  · have := (hi c hc).2; omega
  · have := hf.2; omega

theorem code_csi {s : State} (h : Ready s) {w : List Nat} (hw : Csi w) (hl : w.length ≤ Ecma48.bufferLimit) (m : List Nat) :
    ∃ s' x, Ready s' ∧ nextCode s 0 (w ++ m) = (some ⟨w, some .c1, x⟩, s', 0, m) := by
  obtain ⟨ps, is, f, rfl, hp, hi, hf⟩ := hw
  simp only [List.length_cons, List.length_append, List.length_nil] at hl
  obtain ⟨j1, e1, a1⟩ := Ecma48.loop_esc h (91 :: (ps ++ (is ++ f :: m))) (27 :: 91 :: (ps ++ (is ++ f :: m)))
  obtain ⟨j2, e2, a2, t2⟩ := Ecma48.loop_intro a1
  obtain ⟨j3, e3, a3, t3⟩ := Ecma48.loop_params ps j2 _ _ a2 t2 hp (by show 2 + _ ≤ _; omega)
  obtain ⟨j4, st, q, e4, a4, t4⟩ := Ecma48.loop_middles is j3 .csiP _ _ (Or.inl rfl) a3 t3 hi (by simp; omega)
  have hd := Ecma48.loop_final q a4 t4 hf (by simp; omega)
  rw [← e4, ← e3, ← e2, ← e1] at hd
  have := hd.code (by simp)
  simpa using this

theorem prefix_split {p a b : List Nat} (h : p <+: a ++ b) : p <+: a ∨ ∃ q, p = a ++ q ∧ q <+: b := by
  rcases Nat.le_total p.length a.length with hl | hl
  · exact Or.inl (List.prefix_of_prefix_length_le h (List.prefix_append a b) hl)
  · obtain ⟨q, rfl⟩ := List.prefix_of_prefix_length_le (List.prefix_append a b) h hl
    exact Or.inr ⟨q, rfl, (List.prefix_append_right_inj a).1 h⟩

/-- What was begun and is not complete. -/
theorem code_short {s : State} (h : Ready s) {w p r : List Nat} (hw : Csi w) (hl : w.length ≤ Ecma48.bufferLimit) (he : w = p ++ r) (hr : r ≠ []) :
    (nextCode s 0 p).1 = none := by
  have key : (Ecma48.loop p ⟨s, p, p, 0⟩).1 = false := by
    obtain ⟨ps, is, f, rfl, hp, hi, hf⟩ := hw
    simp only [List.length_cons, List.length_append, List.length_nil] at hl
    cases p with
    | nil =>
      rw [Ecma48.loop_stop (by rfl)]
      simp [h.st]
    | cons a p =>
      rw [List.cons_append] at he
      injection he with ha he
      subst ha
      obtain ⟨j1, e1, a1⟩ := Ecma48.loop_esc h p (27 :: p)
      rw [e1]
      cases p with
      | nil => exact Ecma48.loop_short (by simp) a1
      | cons a p =>
        rw [List.cons_append] at he
        injection he with ha he
        subst ha
        obtain ⟨j2, e2, a2, t2⟩ := Ecma48.loop_intro a1
        rw [e2]
        -- `p` is the beginning of the parameters, or all of them and some of what follows
        have hpre : p <+: ps ++ is := by
          have h1 : p <+: (ps ++ is) ++ [f] := ⟨r, he.symm⟩
          rw [List.prefix_concat_iff] at h1
          rcases h1 with h1 | h1
          · rw [h1, List.append_assoc (ps ++ is)] at he
            have := List.append_cancel_left (he.trans (by simp) : (ps ++ is) ++ [f] = (ps ++ is) ++ ([f] ++ r))
            exact absurd (by simpa using this) hr
          · exact h1
        rcases prefix_split hpre with hx | ⟨q, rfl, hq⟩
        · obtain ⟨y, rfl⟩ := hx
          have := Ecma48.loop_params p j2 _ [] (by simpa using a2) t2 (fun c hc => hp c (by simp [hc])) (by simp at hl ⊢; omega)
          obtain ⟨j3, e3, a3, t3⟩ := this
          rw [List.append_nil] at e3
          rw [e3]
          exact Ecma48.loop_short (by simp) a3
        · obtain ⟨y, rfl⟩ := hq
          obtain ⟨j3, e3, a3, t3⟩ := Ecma48.loop_params ps j2 _ q a2 t2 hp (by show 2 + _ ≤ _; omega)
          obtain ⟨j4, st, qq, e4, a4, t4⟩ := Ecma48.loop_middles q j3 .csiP _ [] (Or.inl rfl) (by simpa using a3) t3 (fun c hc => hi c (by simp [hc])) (by simp at hl ⊢; omega)
          rw [List.append_nil] at e4
          rw [e3, e4]
          exact Ecma48.loop_short (by rcases qq with rfl | rfl <;> simp) a4
  unfold nextCode
  simp [key]

/-- Not text. -/
theorem code_item {s : State} (h : Ready s) {pre : List Nat} {f : Nat} {v : List Nat} (hv : Item pre f v) (hpre : [27, 91] <+: pre)
    (hn : ∀ c, v = [c] → ¬ Printable c) (hl : v.length ≤ Ecma48.bufferLimit) (m : List Nat) :
    ∃ s' t x, Ready s' ∧ nextCode s 0 (v ++ m) = (some ⟨v, some t, x⟩, s', 0, m) ∧ (t = .c1 → ¬ (starts pre v = true ∧ isFinal (some f) v = true)) := by
  cases hv with
  | text hp => exact absurd hp (hn _ rfl)
  | @control c h0 hc he =>
    obtain ⟨s', x, a, b⟩ := (Ecma48.loop_control h (by omega) hc he m).code (by simp)
    exact ⟨s', _, x, a, b, fun hh => by cases hh⟩
  | @lower c h0 hc =>
    obtain ⟨j1, e1, a1⟩ := Ecma48.loop_esc h (c :: m) (27 :: c :: m)
    have hd := Ecma48.loop_lower a1 h0 hc
    rw [← e1] at hd
    obtain ⟨s', x, a, b⟩ := hd.code (by simp)
    exact ⟨s', _, x, a, b, fun hh => by cases hh⟩
  | @upper c h0 hc hnn =>
    obtain ⟨j1, e1, a1⟩ := Ecma48.loop_esc h (c :: m) (27 :: c :: m)
    have hd := Ecma48.loop_upper a1 h0 hc hnn
    rw [← e1] at hd
    obtain ⟨s', x, a, b⟩ := hd.code (by simp)
    refine ⟨s', _, x, a, b, fun _ hh => ?_⟩
    obtain ⟨p, rfl⟩ := hpre
    have := hh.1
    simp [starts] at this
    subst this
    simp at hnn
  | csi hc hnn =>
    obtain ⟨s', x, a, b⟩ := code_csi h hc hl m
    refine ⟨s', _, x, a, b, fun _ hh => ?_⟩
    rw [starts_iff, isFinal_iff] at hh
    rcases hnn with hnn | hnn
    · exact hnn hh.2
    · rcases hh.1 with h1 | h1
      · exact hnn.1 h1
      · exact hnn.2 h1

theorem item_text {pre : List Nat} {f : Nat} {v : List Nat} (hv : Item pre f v) : ∀ c ∈ v, IsText c := by
  cases hv with
  | text _ ht => simpa using ht
  | control h0 hc => intro c h; simp at h; subst h; exact Ecma48.ascii_text (by omega) (by omega)
  | lower h0 hc => intro c h; simp at h; rcases h with rfl | rfl <;> exact Ecma48.ascii_text (by omega) (by omega)
  | upper h0 hc => intro c h; simp at h; rcases h with rfl | rfl <;> exact Ecma48.ascii_text (by omega) (by omega)
  | csi hc =>
    intro c h
    refine Ecma48.ascii_text (csi_ascii hc c h) ?_
    obtain ⟨ps, is, f, rfl, hp, hi, hf⟩ := hc
    simp only [List.mem_cons, List.mem_append, List.not_mem_nil, or_false] at h
    rcases h with rfl | rfl | (hc | hc) | rfl
    · omega
    · omega
    · have := (hp c hc).1; omega
    · have := (hi c hc).1; omega
    · have := hf.1; omega

/-- Not text: it begins with a control character, and is ASCII. -/
theorem item_code {pre : List Nat} {f : Nat} {v : List Nat} (hv : Item pre f v) (hn : ∀ c, v = [c] → ¬ Printable c) :
    (∃ c r, v = c :: r ∧ c ≠ 0 ∧ c < 32) ∧ ∀ c ∈ v, c < 128 := by
  cases hv with
  | text hp => exact absurd hp (hn _ rfl)
  | @control c h0 hc => exact ⟨⟨c, [], rfl, by omega, hc⟩, by simp; omega⟩
  | @lower c h0 hc => exact ⟨⟨27, [c], rfl, by omega, by omega⟩, by simp; omega⟩
  | @upper c h0 hc => exact ⟨⟨27, [c], rfl, by omega, by omega⟩, by simp; omega⟩
  | csi hc =>
    refine ⟨?_, csi_ascii hc⟩
    obtain ⟨ps, is, f, rfl, hp, hi, hf⟩ := hc
    exact ⟨27, _, rfl, by omega, by omega⟩

/-- The text at the beginning. -/
theorem split_text {pre : List Nat} {f : Nat} : ∀ (vs : List (List Nat)), (∀ v ∈ vs, Item pre f v) → ∃ (cs : List Nat) (rest : List (List Nat)),
    vs.flatten = cs ++ rest.flatten ∧ rest.length ≤ vs.length ∧ (∀ c ∈ cs, IsText c ∧ 32 ≤ c) ∧ (∀ v ∈ rest, Item pre f v) ∧
      ∀ t, Ends t → Ends (flat rest.flatten ++ t) := by
  intro vs
  induction vs with
  | nil => intro _; exact ⟨[], [], rfl, Nat.le_refl _, by simp, by simp, fun t h => h⟩
  | cons v vs ih =>
    intro hv
    by_cases hn : ∀ c, v = [c] → ¬ Printable c
    · refine ⟨[], v :: vs, rfl, Nat.le_refl _, by simp, hv, fun t _ => ?_⟩
      obtain ⟨⟨c, r, rfl, h0, hc⟩, _⟩ := item_code (hv v (by simp)) hn
      intro x hx
      have : flat ((c :: r) :: vs).flatten ++ t = c :: (flat (r ++ vs.flatten) ++ t) := by
        show specUtf8 c ++ _ ++ t = _
        rw [Ecma48.utf8_ascii (by omega)]; rfl
      rw [this] at hx
      injection hx with hx
      subst hx
      exact ⟨h0, hc⟩
    · have : ∃ c, v = [c] ∧ Printable c := Classical.byContradiction fun hh => hn fun c e hp => hh ⟨c, e, hp⟩
      obtain ⟨c, rfl, hp⟩ := this
      obtain ⟨cs, rest, e, l, h1, h2, h3⟩ := ih (fun x hx => hv x (by simp [hx]))
      refine ⟨c :: cs, rest, by simp [e], by simp; omega, ?_, h2, h3⟩
      intro x hx
      rcases List.mem_cons.1 hx with rfl | hx
      · exact ⟨item_text (hv [x] (by simp)) x (by simp), hp.1⟩
      · exact h1 x hx

theorem find_skip {pre : List Nat} {f : Nat} (hpre : [27, 91] <+: pre) (n : Nat) (t : List Nat) (ht : Ends t) :
    ∀ (len : Nat) (vs : List (List Nat)) (s : State), vs.length ≤ len → (∀ v ∈ vs, Item pre f v) → Ready s →
      (flat vs.flatten).length ≤ Ecma48.bufferLimit →
      ∃ s', Ready s' ∧ findCode pre (some f) n s 0 (flat vs.flatten ++ t) = findCode pre (some f) n s' 0 t := by
  intro len
  induction len with
  | zero =>
    intro vs s hl _ hs _
    cases vs with
    | nil => exact ⟨s, hs, rfl⟩
    | cons v vs => simp at hl
  | succ len ih =>
    intro vs s hl hv hs hlim
    cases vs with
    | nil => exact ⟨s, hs, rfl⟩
    | cons v vs =>
      rw [List.length_cons] at hl
      by_cases hn : ∀ c, v = [c] → ¬ Printable c
      · have hi := hv v (by simp)
        obtain ⟨⟨c, r, hcr, h0, hc⟩, hasc⟩ := item_code hi hn
        have hfl : flat (v :: vs).flatten = v ++ flat vs.flatten := by
          rw [List.flatten_cons, Ecma48.flat_cat, Ecma48.flat_ascii hasc]
        rw [hfl, List.length_append] at hlim
        obtain ⟨s1, ty, x, f1, e1, n1⟩ := code_item hs hi hpre hn (by omega) (flat vs.flatten ++ t)
        obtain ⟨s2, f2, e2⟩ := ih vs s1 (by omega) (fun x hx => hv x (by simp [hx])) f1 (by omega)
        refine ⟨s2, f2, ?_⟩
        rw [hfl, List.append_assoc, findCode, e1]
        dsimp only
        rw [if_neg, if_pos, e2]
        · rw [hcr]; simp; omega
        · rintro ⟨a, b, c⟩
          injection a with a
          exact n1 a ⟨b, c⟩
      · have : ∃ c, v = [c] ∧ Printable c := Classical.byContradiction fun hh => hn fun c e hp => hh ⟨c, e, hp⟩
        obtain ⟨c, rfl, hp⟩ := this
        obtain ⟨cs, rest, e, l, h1, h2, h3⟩ := split_text vs (fun x hx => hv x (by simp [hx]))
        have hct := item_text (hv [c] (by simp)) c (by simp)
        have hfl : flat ([c] :: vs).flatten = flat (c :: cs) ++ flat rest.flatten := by
          rw [List.flatten_cons, e, ← List.append_assoc, Ecma48.flat_cat]; rfl
        rw [hfl, List.length_append] at hlim
        have hbl : Ecma48.bufferLimit < 65536 := by decide
        obtain ⟨s1, x, f1, e1⟩ := Ecma48.code_text hs hp (cs := cs) (t := flat rest.flatten ++ t)
          (by intro y hy; rcases List.mem_cons.1 hy with rfl | hy
              · exact ⟨hct, hp.1⟩
              · exact h1 y hy) (h3 t ht) (by omega)
        obtain ⟨s2, f2, e2⟩ := ih rest s1 (by omega) h2 f1 (by omega)
        refine ⟨s2, f2, ?_⟩
        rw [hfl, List.append_assoc, findCode, e1]
        dsimp only
        rw [if_neg, if_pos, e2]
        · have : 0 < (flat (c :: cs)).length := by
            show 0 < (specUtf8 c ++ flat cs).length
            rw [List.length_append]
            have : 0 < (specUtf8 c).length := by unfold specUtf8; split <;> (try split) <;> (try split) <;> simp
            omega
          simp only [List.length_append]; omega
        · rintro ⟨a, _⟩
          cases a

/-- While the answer is not complete nothing is found. -/
theorem find_none {pre : List Nat} {f : Nat} (hpre : [27, 91] <+: pre) (n : Nat) {vs : List (List Nat)} (hv : ∀ v ∈ vs, Item pre f v)
    {w p r : List Nat} (hw : Csi w) (he : w = p ++ r) (hr : r ≠ []) (hl : (flat vs.flatten ++ w).length ≤ Ecma48.bufferLimit) :
    findCode pre (some f) n {} 0 (flat vs.flatten ++ p) = none := by
  rw [List.length_append] at hl
  have ht : Ends p := by
    intro c hc
    cases p with
    | nil => cases hc
    | cons a p =>
      obtain ⟨ps, is, f, rfl, hp, hi, hf⟩ := hw
      injection hc with hc
      injection he with he
      subst hc; subst he
      exact ⟨by omega, by omega⟩
  obtain ⟨s', f', e⟩ := find_skip hpre n p ht vs.length vs {} (Nat.le_refl _) hv ⟨rfl, rfl⟩ (by omega)
  rw [e, findCode]
  have := code_short f' hw (by omega) he hr
  generalize nextCode s' 0 p = q at this ⊢
  obtain ⟨q1, q2, q3, q4⟩ := q
  simp only at this
  subst this
  rfl

/-- The answer is found when it is complete. -/
theorem find_some {pre : List Nat} {f : Nat} (hpre : [27, 91] <+: pre) {vs : List (List Nat)} (hv : ∀ v ∈ vs, Item pre f v)
    {w : List Nat} (hw : Csi w) (ha : Answers pre f w) (hl : (flat vs.flatten ++ w).length ≤ Ecma48.bufferLimit) :
    findCode pre (some f) (flat vs.flatten ++ w).length {} 0 (flat vs.flatten ++ w) =
      some (w, (flat vs.flatten).length, (flat vs.flatten ++ w).length) := by
  rw [List.length_append] at hl
  have ht : Ends w := by
    intro c hc
    obtain ⟨ps, is, f, rfl, hp, hi, hf⟩ := hw
    injection hc with hc
    subst hc
    exact ⟨by omega, by omega⟩
  obtain ⟨s', f', e⟩ := find_skip hpre (flat vs.flatten ++ w).length w ht vs.length vs {} (Nat.le_refl _) hv ⟨rfl, rfl⟩ (by omega)
  obtain ⟨s2, x, _, e2⟩ := code_csi f' hw (by omega) []
  rw [List.append_nil] at e2
  rw [e, findCode, e2]
  dsimp only
  rw [if_pos ⟨rfl, (starts_iff _ _).2 (Or.inl ha.1), isFinal_iff.2 ha.2⟩]
  simp

end Clink.TermReq
