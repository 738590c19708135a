import Verif.Proof.RedrawDraw

/-!
The mark at the end of the last row.
-/

namespace Clink.Redraw

open Doskey.Spec (flat)
open Ellipsify (Env)
open Ellipsify.Spec (Glyph Glyphs Plain Flag Starts)
open Display (Row Ch chars)
open Utf (specUtf8 IsText)
open Spec

variable {env : Env}

theorem seen_plain {t : Text} {cs : List Nat} (h : PlainText env t cs) : ∃ gs, Seen env t gs ∧ (∀ g ∈ gs, 0 < g.2) ∧ cols gs = plainCols env cs := by
  refine ⟨_, ⟨cs, Ellipsify.singles env cs, h.1, fun c hc => ⟨(h.2 c hc).1.text, (h.2 c hc).1.printable.1, (h.2 c hc).2⟩,
    Ellipsify.glyphs_plain cs fun c hc => (h.2 c hc).1, rfl⟩, ?_, ?_⟩
  · obtain ⟨hb, hp⟩ := h
    clear hb
    induction cs generalizing t with
    | nil => intro g hg; simp [Ellipsify.singles, split] at hg
    | cons c cs ih =>
      intro g hg
      simp only [Ellipsify.singles, List.map_cons, split, List.mem_cons] at hg
      rcases hg with rfl | hg
      · exact (hp c (by simp)).1.wide
      · exact ih (fun x hx => hp x (by simp [hx])) g hg
  · obtain ⟨hb, hp⟩ := h
    clear hb hp
    induction cs generalizing t with
    | nil => rfl
    | cons c cs ih =>
      simp only [Ellipsify.singles, List.map_cons, split, cols, plainCols, List.sum_cons] at ih ⊢
      rw [ih]

theorem plain_last {t : Text} {cs : List Nat} {c : Nat} (h : PlainText env t (cs ++ [c])) :
    ∃ t1 t2, t = t1 ++ t2 ∧ PlainText env t1 cs ∧ PlainText env t2 [c] ∧ t2.length = (specUtf8 c).length := by
  obtain ⟨h1, h2⟩ := h
  rw [flat_last] at h1
  have hl : t.length = (flat cs).length + (specUtf8 c).length := by rw [← bytes_length, h1, List.length_append]
  have e : bytes (t.take (flat cs).length) = flat cs ∧ bytes (t.drop (flat cs).length) = specUtf8 c := by
    have : bytes (t.take (flat cs).length) ++ bytes (t.drop (flat cs).length) = flat cs ++ specUtf8 c := by
      rw [← bytes_append, List.take_append_drop, h1]
    exact List.append_inj this (by rw [bytes_length, List.length_take]; omega)
  refine ⟨t.take (flat cs).length, t.drop (flat cs).length, by simp, ⟨e.1, fun x hx => h2 x (by simp [hx])⟩, ⟨?_, ?_⟩, ?_⟩
  · rw [e.2]; simp [flat]
  · intro x hx
    exact h2 x (by simp at hx; simp [hx])
  · rw [List.length_drop]; omega

theorem lastNonzero_plain {c : Nat} (hc : Plain env c) (a : List Nat) : lastNonzero env (a ++ specUtf8 c) = (specUtf8 c).length := by
  have hne : a ++ specUtf8 c ≠ [] := by simp [Utf.specUtf8_ne_nil]
  rw [lastNonzero, dif_neg hne, lastLen_char hc.text]
  dsimp only
  have hd : (a ++ specUtf8 c).drop ((a ++ specUtf8 c).length - (specUtf8 c).length) = specUtf8 c := by
    rw [List.length_append, Nat.add_sub_cancel, List.drop_left]
  have hp : Doskey.peek (specUtf8 c) = c := by
    have := Doskey.peek_flat hc.text []
    simpa using this
  rw [hd, hp, if_pos]
  simp [hc.wide]

/-- Room is made by taking off characters. -/
theorem makeRoom_plain (hz : env.variant 0 = false) {W : Nat} (hW : 2 ≤ W) : ∀ (n : Nat) (cs : List Nat) (t : Text), cs.length = n → PlainText env t cs →
    ∃ c1 c2 t1 t2, cs = c1 ++ c2 ∧ t = t1 ++ t2 ∧ PlainText env t1 c1 ∧ makeRoom env W 0 t (plainCols env cs) = some (t1, plainCols env c1) ∧
      plainCols env c1 + 1 < W ∧ ∀ c r, c2 = c :: r → W ≤ plainCols env (c1 ++ [c]) + 1
  | 0, cs, t, hn, h => by
    have : cs = [] := List.length_eq_zero_iff.1 hn
    subst this
    refine ⟨[], [], t, [], rfl, by simp, h, ?_, by simp [plainCols]; omega, by simp⟩
    rw [makeRoom, if_neg (by simp [plainCols]; omega)]
  | n + 1, cs, t, hn, h => by
    by_cases hr : W ≤ 0 + plainCols env cs + 1
    · rcases List.eq_nil_or_concat cs with rfl | ⟨cs', c, hcs⟩
      · simp at hn
      · rw [List.concat_eq_append] at hcs
        subst hcs
        obtain ⟨t1, t2, e1, e2, e3, e4⟩ := plain_last h
        have hc : Plain env c := (e3.2 c (by simp)).1
        have hpos := Ecma48.spec_pos c
        have hne : t ≠ [] := by
          intro h0
          have := congrArg List.length (e1.symm.trans h0)
          simp at this
          rw [this.2] at e4
          simp at e4
          omega
        have hb : bytes t = flat cs' ++ specUtf8 c := by rw [h.1, flat_last]
        have hln : lastNonzero env (bytes t) = (specUtf8 c).length := by rw [hb, lastNonzero_plain hc]
        have hcut : t.take (t.length - (specUtf8 c).length) = t1 ∧ t.drop (t.length - (specUtf8 c).length) = t2 := by
          rw [e1, List.length_append, e4, Nat.add_sub_cancel]
          exact ⟨List.take_left, List.drop_left⟩
        obtain ⟨g2, s1, s2, s3⟩ := seen_plain e3
        have hw : wcs env t2 = (env.wc c).toNat := by rw [wcs_seen hz s1 s2, s3]; simp [plainCols]
        have hsum : plainCols env (cs' ++ [c]) = plainCols env cs' + (env.wc c).toNat := by simp [plainCols]
        obtain ⟨c1, c2, u1, u2, r1, r2, r3, r4, r5, r6⟩ := makeRoom_plain hz hW n cs' t1 (by simp at hn; omega) e2
        refine ⟨c1, c2 ++ [c], u1, u2 ++ t2, by rw [r1]; simp, by rw [e1, r2]; simp, r3, ?_, r5, ?_⟩
        · rw [makeRoom, if_pos hr, dif_neg hne]
          dsimp only
          rw [hln, hcut.1, hcut.2, hw, hsum, Nat.add_sub_cancel]
          exact r4
        · intro x r hx
          cases c2 with
          | nil =>
            simp only [List.nil_append, List.cons.injEq] at hx
            rw [← hx.1]
            rw [List.append_nil] at r1
            rw [← r1]
            omega
          | cons y c2 =>
            simp only [List.cons_append, List.cons.injEq] at hx
            rw [← hx.1]
            exact r6 y c2 rfl
    · refine ⟨cs, [], t, [], by simp, by simp, h, ?_, by omega, by simp⟩
      rw [makeRoom, if_neg hr]

/-- The mark is in the last column but one. -/
theorem mark_place (hz : env.variant 0 = false) (ha : Ascii env) {W : Nat} (hW : 2 ≤ W) {d : Row} {t : Text} {cs : List Nat} (hx : d.x = 0) (hl : 2 < d.lastcol)
    (ht : d.text = t ++ List.replicate d.trail (32, 48)) (hp : PlainText env t cs) (hc : d.lastcol = plainCols env cs) :
    ∃ d' c1 c2 t1 t2 l1 n, markLast env W d = some d' ∧ cs = c1 ++ c2 ∧ t = t1 ++ t2 ∧ bytes t1 = flat c1 ∧ Drawn env t1 l1 ∧
      l1.length + n + 2 = W ∧ (∀ c r, c2 = c :: r → W ≤ plainCols env (c1 ++ [c]) + 1) ∧
      d' = { d with text := t1 ++ List.replicate n (32, 48) ++ [(62, 60)], lastcol := W - 1 } ∧
      Drawn env d'.text (l1 ++ List.replicate n .blank ++ [.part [(62, 60)] 0 1]) := by
  obtain ⟨c1, c2, t1, t2, r1, r2, r3, r4, r5, r6⟩ := makeRoom_plain hz hW _ cs t rfl hp
  obtain ⟨g1, s1, s2, s3⟩ := seen_plain r3
  refine ⟨{ d with text := t1 ++ List.replicate (W - (plainCols env c1 + 2)) (32, 48) ++ [(62, 60)], lastcol := W - 1 }, c1, c2, t1, t2, cellsOf g1,
    W - (plainCols env c1 + 2), ?_, r1, r2, r3.1, ⟨g1, s1, s2, rfl⟩, by rw [cellsOf_length, s3]; omega, r6, rfl, ?_⟩
  · unfold markLast
    rw [if_neg (by omega), ht, List.length_append, List.length_replicate, Nat.add_sub_cancel, List.take_left, hx, hc, r4]
    simp only [Option.map_some, Option.some.injEq, Row.mk.injEq, faceNormal, faceScroll, Nat.zero_add, true_and]
    refine ⟨by omega, ?_⟩
    trivial
  · have m1 : Seen env [(62, 60)] [([(62, 60)], 1)] := by
      obtain ⟨hp, hw⟩ := ha 62 (by omega) (by omega)
      refine ⟨[62], [([62], 1)], rfl, by simp [IsText], ?_, rfl⟩
      rw [← hw]
      have := Ellipsify.glyphs_plain (env := env) [62] (by simpa using hp)
      simpa [Ellipsify.singles] using this
    have m2 := seen_append ha (seen_append ha s1 (seen_spaces ha (W - (plainCols env c1 + 2))) (by
      intro p hp
      have := List.mem_of_head? hp
      rw [(List.mem_replicate.1 this).2]; omega)) m1 (by intro p hp; simp at hp; rw [← hp]; omega)
    refine ⟨_, m2, ?_, ?_⟩
    · intro g hg
      rcases List.mem_append.1 hg with hg | hg
      · rcases List.mem_append.1 hg with hg | hg
        · exact s2 g hg
        · rw [(List.mem_replicate.1 hg).2]; omega
      · simp at hg; rw [hg]; omega
    · show _ = cellsOf _
      rw [cellsOf_append, cellsOf_append, cells_spaces]
      rfl

end Clink.Redraw
