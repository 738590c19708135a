import Verif.Proof.Display

/-!
The rows of the input line: whole lines.
-/

namespace Clink.Display

open Doskey (peek next between)
open Doskey.Spec (flat)
open Utf (IsText)
open Ellipsify (Env oneRun)
open Ellipsify.Spec (Glyph Glyphs)
open Spec

variable {env : Env}

theorem chars_go (hz : env.variant 0 = false) {cs : List Nat} {gs : List (List Nat × Int)} (h : Glyphs env cs gs) : (∀ c ∈ cs, IsText c) →
    chars env (flat cs) = gs.map fun g => ⟨g.1.headD 0, flat g.1, g.2⟩ := by
  induction h with
  | nil => intro _; rw [chars]; simp [Ellipsify.peek_nil]
  | @cons w rest n gs h1 h2 ih =>
    intro ht
    obtain ⟨c, w', hw⟩ : ∃ c w', w = c :: w' := by
      have := Ellipsify.glyph_ne h1
      cases w with
      | nil => exact absurd rfl this
      | cons c w => exact ⟨c, w, rfl⟩
    have hp : peek (flat (w ++ rest)) = c := by
      rw [hw, List.cons_append, Ellipsify.peek_cons (ht c (by simp [hw]))]
    have hne : peek (flat (w ++ rest)) ≠ 0 := by
      rw [hp]
      have := (ht c (by simp [hw])).1
      omega
    rw [chars, dif_neg hne, Ellipsify.oneRun_go hz h1 ht]
    simp only [List.map_cons]
    rw [ih (fun c hc => ht c (by simp [hc])), Ecma48.flat_append, Ecma48.between_mid, ← Ecma48.flat_append, hp, hw]
    rfl

/-- Only control characters have a negative width. -/
theorem glyph_neg {w rest : List Nat} {n : Int} (h : Glyph env w rest n) (hn : n < 0) : ∃ c, w = [c] ∧ env.wc c < 0 := by
  cases h with
  | @ctrl c _ hc => exact ⟨c, rfl, hc⟩
  | flags => omega
  | @emoji c w _ _ hcol hw hf he hs hn1 hn2 =>
    exfalso
    by_cases h1 : w ≠ [] ∨ c ∈ [0x3030, 0x303d, 0x3297, 0x3299] ∨ ¬ (env.emoji c ∨ env.unq c)
    · have := hn1 h1; omega
    · have := hn2 (by tauto) (by tauto) (by tauto); omega
  | @plain c w _ _ hc hk hw hr hn1 hn2 =>
    exfalso
    by_cases h1 : ∃ z ∈ w, env.wc z ≠ 0
    · have := hn1 h1; omega
    · have := hn2 (by intro z hz; by_cases h : env.wc z = 0; exact h; exact absurd ⟨z, hz, h⟩ h1); omega

theorem glyph_lf (h10 : env.wc 10 < 0) {w rest : List Nat} {n : Int} (h : Glyph env w rest n) (hw : w.headD 0 = 10) : w = [10] := by
  cases h with
  | @ctrl c _ hc => simpa using hw
  | @flags c d _ hcol hc => simp at hw; rw [hw] at hc; omega
  | @emoji c w _ _ hcol hc => simp at hw; rw [hw] at hc; omega
  | @plain c w _ _ hc => simp at hw; rw [hw] at hc; omega

theorem unctrl_letter {c : Nat} (h : c < 128) : unctrl c = letter c := by
  have : ∀ c : Fin 128, unctrl c = letter c := by decide
  exact this ⟨c, h⟩

theorem flat_pos {w : List Nat} (h : w ≠ []) : 0 < (flat w).length := by
  cases w with
  | nil => exact absurd rfl h
  | cons c w =>
    have : ∀ c, 0 < (Utf.specUtf8 c).length := by
      intro c
      unfold Utf.specUtf8
      split
      · simp
      · split
        · simp
        · split <;> simp
    have := this c
    rw [Ecma48.flat_cons, List.length_append]; omega

theorem flat_one {c : Nat} (h : c < 128) : flat [c] = [c] := by
  rw [Ecma48.flat_cons]
  simp [Utf.specUtf8, flat]
  omega

variable {su : Setup} {p x total : Nat}

theorem startPos_pieces {gs : List (List Nat × Int)} {pos : Nat} (h : gs = [] → pos = total) : startPos total (pieces su.lf pos gs) = pos := by
  cases gs with
  | nil => exact (h rfl).symm
  | cons g gs =>
    unfold pieces shown
    split
    · rfl
    · split <;> rfl

theorem fold_go (hz : env.variant 0 = false) (h10 : env.wc 10 < 0) {cs : List Nat} {gs : List (List Nat × Int)} (h : Glyphs env cs gs) :
    (∀ c ∈ cs, env.wc c < 0 → c < 128) → ∀ {L : Lay} {s : Lines}, Inv su p x total L (pieces su.lf s.index gs) s → s.index + (flat cs).length = total →
    ∃ s' L', (gs.map fun g => (⟨g.1.headD 0, flat g.1, g.2⟩ : Ch)).foldl (step su) s = s' ∧ L' = (pieces su.lf s.index gs).foldl (Lay.add su.width) L ∧
      Inv su p x total L' [] s' ∧ s'.index = total := by
  induction h with
  | nil => intro _ L s hi ht; exact ⟨s, L, rfl, rfl, hi, by simpa [flat] using ht⟩
  | @cons w rest n gs h1 h2 ih =>
    intro hc L s hi ht
    have hc' : ∀ c ∈ rest, env.wc c < 0 → c < 128 := fun c hm => hc c (by simp [hm])
    have hwne := Ellipsify.glyph_ne h1
    have hlen := flat_pos hwne
    rw [Ecma48.flat_append, List.length_append] at ht
    have hsp : ∀ k, k = s.index + (flat w).length → startPos total (pieces su.lf k gs) = k := by
      intro k hk
      apply startPos_pieces
      intro hg
      subst hg
      cases h2
      simp [flat] at ht hk ⊢; omega
    -- one step
    have one : ∀ {L' : Lay}, (shown su.lf s.index w n).foldl (Lay.add su.width) L = L' →
        Inv su p x total L' (pieces su.lf (s.index + (flat w).length) gs) (step su s ⟨w.headD 0, flat w, n⟩) →
        (step su s ⟨w.headD 0, flat w, n⟩).index = s.index + (flat w).length →
        ∃ s' L', (((w, n) :: gs).map fun g => (⟨g.1.headD 0, flat g.1, g.2⟩ : Ch)).foldl (step su) s = s' ∧
          L' = (pieces su.lf s.index ((w, n) :: gs)).foldl (Lay.add su.width) L ∧ Inv su p x total L' [] s' ∧ s'.index = total := by
      intro L' hL hi' hidx
      rw [← hidx] at hi'
      obtain ⟨s', L2, k1, k2, k3, k4⟩ := ih hc' hi' (by rw [hidx]; omega)
      refine ⟨s', L2, ?_, ?_, k3, k4⟩
      · simpa using k1
      · rw [k2, pieces, List.foldl_append, hL, hidx]
    rw [pieces] at hi
    by_cases hlf : su.lf = true ∧ w = [10]
    · obtain ⟨hl, hw⟩ := hlf
      subst hw
      have hs : shown su.lf s.index [10] n = [⟨s.index, 1, true, false, .newline⟩] := by unfold shown; rw [if_pos ⟨hl, rfl⟩]
      have hst : step su s ⟨([10] : List Nat).headD 0, flat [10], n⟩ = stepLf su s := by unfold step; simp [hl]
      have hf1 : (flat [10]).length = 1 := by decide
      rw [hs] at hi
      have := inv_lf (q := ⟨s.index, 1, true, false, .newline⟩) (rest := pieces su.lf (s.index + (flat [10]).length) gs) hi rfl
        (by rw [hsp _ rfl, hf1])
      refine one (by rw [hs]) (by rw [hst]; exact this) ?_
      rw [hst, hf1]
      simp [stepLf, Lines.nextLine, Lines.close]
    · have hnlf : ¬ ((decide (w.headD 0 = 10) && su.lf) = true) := by
        intro hb
        simp at hb
        exact hlf ⟨hb.2, glyph_lf h10 h1 (by simpa using hb.1)⟩
      by_cases hn : n < 0
      · obtain ⟨c, hw, hcc⟩ := glyph_neg h1 hn
        have hc128 : c < 128 := hc c (by simp [hw]) hcc
        subst hw
        have hs : shown su.lf s.index [c] n = [⟨s.index, 1, true, true, .cells [94] 1⟩, ⟨s.index, 1, false, true, .cells [unctrl c] 1⟩] := by
          unfold shown; rw [if_neg hlf, if_pos hn, unctrl_letter hc128, flat_one hc128]; rfl
        have hst : step su s ⟨([c] : List Nat).headD 0, flat [c], n⟩ = stepCtrl su ⟨([c] : List Nat).headD 0, flat [c], n⟩ s := by
          unfold step
          rw [if_neg hnlf, if_pos hn]
        have hf1 : (flat [c]).length = 1 := by rw [flat_one hc128]; rfl
        rw [hs] at hi
        have := inv_ctrl (su := su) (ch := ⟨([c] : List Nat).headD 0, flat [c], n⟩) (rest := pieces su.lf (s.index + (flat [c]).length) gs) hi rfl rfl hf1
          (by rw [hsp _ rfl, hf1])
        refine one (by rw [hs]) (by rw [hst]; exact this) ?_
        rw [hst, hf1]
        have hb : ∀ (f : Bool) (b fc : Nat) (s : Lines), (stepByte su f b fc s).1.index = s.index := by
          intro f b fc s
          unfold stepByte
          split
          · simp only [cursorIf_index]; rfl
          · rfl
        unfold stepCtrl
        simp only
        split <;> simp [hb]
      · have hs : shown su.lf s.index w n = [⟨s.index, (flat w).length, true, false, .cells (flat w) n.toNat⟩] := by
          unfold shown; rw [if_neg hlf, if_neg hn]
        have hst : step su s ⟨w.headD 0, flat w, n⟩ = stepText su ⟨w.headD 0, flat w, n⟩ s := by
          unfold step
          rw [if_neg hnlf, if_neg hn]
        rw [hs] at hi
        have := inv_text (su := su) (ch := ⟨w.headD 0, flat w, n⟩) (rest := pieces su.lf (s.index + (flat w).length) gs) hi rfl hlen
          (by rw [hsp _ rfl])
        refine one (by rw [hs]) (by rw [hst]; exact this) ?_
        rw [hst]
        unfold stepText
        simp only [cursorIf_index]
        split <;> rfl

theorem inv_begin {rest : List Piece} (h : startPos total rest = 0) : Inv su p x total ⟨[], [], x⟩ rest (begin p x) := by
  refine ⟨⟨rfl, ?_, by simp, ⟨[], by simp [begin], rfl, by simp⟩, rfl, rfl, ?_, rfl, rfl⟩, good_start _ _, ?_, rfl, by simp, h, ?_⟩
  · simp [startCol, width]
  · simpa [begin] using h.symm
  · intro _
    refine ⟨fun _ => rfl, ?_⟩
    rintro ⟨A', r, h1, -⟩
    simp at h1
  · intro A a q b B h1
    rcases split_snoc (A := []) h1 with ⟨B', -, h2⟩ | ⟨-, h2, -⟩ <;> simp at h2

/-- The end of the line. -/
theorem finish_go {L : Lay} {s : Lines} (h : Inv su p x total L [] s) (ht : s.index = total) :
    ∃ ds, (finish su s).all = List.replicate p ({} : Row) ++ ds ∧ ds.length = (L.rows su.width).length ∧
      (∀ A r B, L.rows su.width = A ++ r :: B → ∃ d, ds[A.length]? = some d ∧ Holds su.width x total su.face A r B d) ∧
      (∀ A a q b B, L.rows su.width = A ++ (a ++ q :: b) :: B → q.first → q.pos ≤ su.point → su.point < q.pos + q.len →
        (finish su s).vpos = p + A.length ∧ (finish su s).cpos = startCol x A + width a) ∧
      (∀ A r, L.rows su.width = A ++ [r] → su.point = total → (finish su s).vpos = p + A.length ∧ (finish su s).cpos = startCol x A + width r) := by
  obtain ⟨ds, r1, r2, r3⟩ := h.rel.rows
  have hcol := h.rel.col
  have hne := not_ends h.rel.cur
  have hclose : Holds su.width x total su.face L.A L.a [] (s.close s.index 0 false).d := by
    refine ⟨?_, ⟨fun _ => h.rel.trail, fun h => absurd rfl h⟩, ?_, ⟨?_, ?_⟩, h.rel.left, ?_, ?_, h.lead⟩
    · simp [Lines.close, h.rel.text, h.rel.trail]
    · simp [Lines.close, h.rel.start]
    · intro a q h1 h2; exact absurd (h1 ▸ ends_snoc.2 h2) hne
    · intro _; simp [Lines.close, startPos, ht]
    · show s.col = _; rw [hcol, h.rel.at_]
    · simp [Lines.close, hne]
  have hcnd : (s.close s.index 0 false).d.lastcol + (s.close s.index 0 false).d.trail = L.col := by
    show s.col + (s.d.trail + 0) = _
    rw [h.rel.trail, hcol]; rfl
  have nopt : ∀ {A a q b B}, L.A ++ [L.a] = A ++ (a ++ q :: b) :: B → q.pos + q.len ≤ total := by
    intro A a q b B h1
    have hm : q ∈ (L.A ++ [L.a]).flatten := by rw [h1]; simp
    have := (h.done q (by simpa using hm)).2
    omega
  unfold finish Lay.rows
  simp only [hcnd]
  by_cases hW : su.width ≤ L.col
  · rw [if_pos hW, if_pos hW]
    have hcur : ∀ A a q b B, L.A ++ [L.a, []] = A ++ (a ++ q :: b) :: B → L.A ++ [L.a] = A ++ (a ++ q :: b) :: B.dropLast := by
      intro A a q b B h1
      have h1' : (L.A ++ [L.a]) ++ [[]] = A ++ (a ++ q :: b) :: B := by simpa using h1
      rcases split_snoc h1' with ⟨B', h2, h3⟩ | ⟨-, h2, -⟩
      · rw [h2]; simpa using h3
      · simp at h2
    refine ⟨ds ++ [(s.close s.index 0 false).d, { start := s.index, stop := s.index }], ?_, by simp [r2], ?_, ?_, ?_⟩
    · unfold Lines.all
      simp only [cursorIf_rows, cursorIf_d]
      show (s.rows ++ [(s.close s.index 0 false).d]) ++ [{ start := s.index, stop := s.index }] = _
      rw [r1]; simp
    · intro A r B h1
      have h1' : (L.A ++ [L.a]) ++ [[]] = A ++ r :: B := by simpa using h1
      rcases split_snoc h1' with ⟨B', h2, h3⟩ | ⟨h2, h3, h4⟩
      · rcases split_snoc h3 with ⟨B'', h4, h5⟩ | ⟨h4, h5, h6⟩
        · obtain ⟨d, k1, k2⟩ := r3 A r B'' h5
          refine ⟨d, ?_, ?_⟩
          · rw [List.getElem?_append_left (by rw [r2, h5]; simp), k1]
          · refine holds_congr k2 ?_ (by rw [h2]; simp)
            rw [h2, h4]; simp
        · refine ⟨(s.close s.index 0 false).d, ?_, ?_⟩
          · rw [h4, ← r2]; simp
          · rw [h4, h5, h2, h6]
            have hc := hclose
            refine ⟨hc.text, ⟨fun _ => h.rel.trail, fun _ _ => ?_⟩, by simpa using hc.start, ⟨hc.stop.1, by simpa using hc.stop.2⟩, hc.left, hc.lastcol, hc.newline, hc.lead⟩
            show s.d.trail + 0 = _
            rw [h.rel.trail, ← h.rel.at_]; omega
      · refine ⟨{ start := s.index, stop := s.index }, ?_, ?_⟩
        · rw [h2, List.length_append, ← r2]; simp
        · rw [h2, h3, h4]
          refine ⟨rfl, ⟨fun _ => rfl, fun h => absurd rfl h⟩, ht, ⟨by simp, fun _ => ht⟩, (startCol_snoc _ _ _).symm, ?_, by simp [not_ends_nil], ?_⟩
          · rw [startCol_snoc]; rfl
          · intro _; exact ⟨fun _ => rfl, fun _ => rfl⟩
    · intro A a q b B h1 h2 h3 h4
      have h5 := hcur A a q b B h1
      have := nopt h5
      have hb : (s.index == su.point) = false := by simp; omega
      have e : (((s.close s.index 0 false).nextLine (s.close s.index 0 false).index).index == su.point) = false := hb
      simp only [Lines.cursorIf]
      rw [show (({ ((s.close s.index 0 false).nextLine (s.close s.index 0 false).index) with d := { ((s.close s.index 0 false).nextLine (s.close s.index 0 false).index).d with stop := ((s.close s.index 0 false).nextLine (s.close s.index 0 false).index).index } } : Lines).index == su.point) = false from hb]
      exact h.cur A a q b _ h5 h2 h3 h4
    · intro A r h1 h2
      have h1' : (L.A ++ [L.a]) ++ [[]] = A ++ [r] := by simpa using h1
      have hh := List.append_inj' h1' rfl
      have hr : r = [] := by simpa using hh.2.symm
      have hb : (s.index == su.point) = true := by simp; omega
      simp only [Lines.cursorIf]
      rw [show (({ ((s.close s.index 0 false).nextLine (s.close s.index 0 false).index) with d := { ((s.close s.index 0 false).nextLine (s.close s.index 0 false).index).d with stop := ((s.close s.index 0 false).nextLine (s.close s.index 0 false).index).index } } : Lines).index == su.point) = true from hb]
      rw [hr, ← hh.1, startCol_snoc]
      refine ⟨?_, rfl⟩
      show (s.rows ++ [_]).length = _
      simp [h.rel.len]; omega
  · rw [if_neg hW, if_neg hW]
    refine ⟨ds ++ [(s.close s.index 0 false).d], ?_, by simp [r2], ?_, ?_, ?_⟩
    · unfold Lines.all
      simp only [cursorIf_rows, cursorIf_d]
      show s.rows ++ _ = _
      rw [r1]; simp
    · intro A r B h3
      rcases split_snoc h3 with ⟨B'', h4, h5⟩ | ⟨h4, h5, h6⟩
      · obtain ⟨d, k1, k2⟩ := r3 A r B'' h5
        refine ⟨d, ?_, ?_⟩
        · rw [List.getElem?_append_left (by rw [r2, h5]; simp), k1]
        · refine holds_congr k2 ?_ (by rw [h4]; simp)
          rw [h4]; simp
      · refine ⟨(s.close s.index 0 false).d, ?_, ?_⟩
        · rw [h4, ← r2]; simp
        · rw [h4, h5, h6]; exact hclose
    · intro A a q b B h5 h2 h3 h4
      have := nopt h5
      have hb : (s.index == su.point) = false := by simp; omega
      simp only [Lines.cursorIf]
      rw [show ((s.close s.index 0 false).index == su.point) = false from hb]
      exact h.cur A a q b _ h5 h2 h3 h4
    · intro A r h1 h2
      have hh := List.append_inj' h1 rfl
      have hr : r = L.a := by simpa using hh.2.symm
      have hb : (s.index == su.point) = true := by simp; omega
      simp only [Lines.cursorIf]
      rw [show ((s.close s.index 0 false).index == su.point) = true from hb]
      rw [hr, ← hh.1]
      exact ⟨h.rel.len, by show s.col = _; rw [hcol, h.rel.at_]⟩

theorem parse_go (hz : env.variant 0 = false) (h10 : env.wc 10 < 0) {cs : List Nat} {gs : List (List Nat × Int)} (h : Line env cs gs) :
    ∃ rows ds, Arranged su.width x (pieces su.lf 0 gs) rows ∧ (parse env su p x (flat cs)).all = List.replicate p ({} : Row) ++ ds ∧ ds.length = rows.length ∧
      (∀ A r B, rows = A ++ r :: B → ∃ d, ds[A.length]? = some d ∧ Holds su.width x (flat cs).length su.face A r B d) ∧
      Cursor p x (flat cs).length su.point rows (parse env su p x (flat cs)).vpos (parse env su p x (flat cs)).cpos := by
  have hb : Inv su p x (flat cs).length ⟨[], [], x⟩ (pieces su.lf 0 gs) (begin p x) := by
    apply inv_begin
    apply startPos_pieces
    intro hg
    have := h.glyphs
    rw [hg] at this
    cases this; rfl
  obtain ⟨s', L', k1, k2, k3, k4⟩ := fold_go (total := (flat cs).length) hz h10 h.glyphs h.ctrl (s := begin p x) hb (by simp [begin])
  obtain ⟨ds, f1, f2, f3, f4, f5⟩ := finish_go k3 k4
  have e : parse env su p x (flat cs) = finish su s' := by
    unfold parse; rw [chars_go hz h.glyphs h.text, k1]
  have ha := good_arranged (good_fold (pieces su.lf 0 gs) (good_start su.width x))
  rw [fold_flatten] at ha
  have k2' : L' = (pieces su.lf 0 gs).foldl (Lay.add su.width) ⟨[], [], x⟩ := k2
  rw [← k2'] at ha
  rw [e]
  exact ⟨L'.rows su.width, ds, by simpa using ha, f1, f2, f3, ⟨f4, f5⟩⟩

/-! ### There is only one way -/

theorem prefix_cases {α : Type} : ∀ {r r' : List α} {t t' : List α}, r ++ t = r' ++ t' →
    r = r' ∨ (∃ q u, r' = r ++ q :: u ∧ t = q :: u ++ t') ∨ (∃ q u, r = r' ++ q :: u ∧ t' = q :: u ++ t)
  | [], [], _, _, _ => .inl rfl
  | [], q :: u, t, t', h => .inr (.inl ⟨q, u, rfl, by simpa using h⟩)
  | q :: u, [], t, t', h => .inr (.inr ⟨q, u, rfl, by simpa using h.symm⟩)
  | q :: r, q' :: r', t, t', h => by
    simp at h
    obtain ⟨h1, h2⟩ := h
    subst h1
    rcases prefix_cases h2 with h3 | ⟨q0, u, h3, h4⟩ | ⟨q0, u, h3, h4⟩
    · exact .inl (by rw [h3])
    · exact .inr (.inl ⟨q0, u, by rw [h3]; rfl, h4⟩)
    · exact .inr (.inr ⟨q0, u, by rw [h3]; rfl, h4⟩)

theorem no_longer {W : Nat} {ps : List Piece} {A B B' : List (List Piece)} {r : List Piece} {q : Piece} {u : List Piece} (hw : ∀ q ∈ ps, q.width ≤ W)
    (h : Arranged W x ps (A ++ r :: B)) (h' : Arranged W x ps (A ++ (r ++ q :: u) :: B')) (hB : B.flatten = q :: u ++ B'.flatten) : False := by
  by_cases he : Ends r
  · obtain ⟨q0, h1, h2⟩ := he
    obtain ⟨r0, hr0⟩ : ∃ r0, r = r0 ++ [q0] := by
      rcases List.eq_nil_or_concat r with h0 | ⟨r0, b, h0⟩
      · rw [h0] at h1; simp at h1
      · rw [h0] at h1
        simp at h1
        rw [h1] at h0
        exact ⟨r0, by simpa using h0⟩
    have := h'.newline A r0 q0 (q :: u) B' (by rw [hr0]; simp) h2
    simp at this
  · cases B with
    | nil => simp at hB
    | cons r2 B2 =>
      rcases h.needed A r r2 B2 rfl he with ⟨q2, t, h1, h2, h3⟩ | ⟨h1, h2, -⟩
      · have hq : q2 = q := by
          rw [h1] at hB; simp at hB; exact hB.1
        subst hq
        by_cases hA : A = [] ∨ r ≠ []
        · have := h'.fits A r q2 u B' rfl h2 hA
          omega
        · have hA1 : A ≠ [] := fun h => hA (.inl h)
          have hr : r = [] := by
            by_cases hr : r = []
            · exact hr
            · exact absurd (.inr hr) hA
          have : q2.width ≤ W := hw q2 (by rw [← h.all, h1]; simp)
          simp [startCol, hA1, hr, width] at h3
          omega
      · rw [h1, h2] at hB; simp at hB

theorem arranged_same {W : Nat} {ps : List Piece} (h0 : 0 < W) (hw : ∀ q ∈ ps, q.width ≤ W) : ∀ (rows rows' A : List (List Piece)),
    Arranged W x ps (A ++ rows) → Arranged W x ps (A ++ rows') → rows = rows'
  | [], [], _, _, _ => rfl
  | [], r :: B, A, h, h' => by
    exfalso
    have hf : (r :: B).flatten = [] := by
      have := h.all.trans h'.all.symm
      simp only [List.flatten_append, List.flatten_nil, List.append_nil] at this
      exact List.self_eq_append_right.1 this
    have hr : r = [] := by simp at hf; exact hf.1
    rcases List.eq_nil_or_concat A with hA | ⟨A0, r0, hA⟩
    · rw [hA] at h; exact h.some rfl
    · rw [List.concat_eq_append] at hA
      subst hA
      by_cases he : Ends r0
      · obtain ⟨q0, h1, h2⟩ := he
        obtain ⟨t0, ht⟩ : ∃ t0, r0 = t0 ++ [q0] := by
          rcases List.eq_nil_or_concat r0 with h0 | ⟨t0, b, h0⟩
          · rw [h0] at h1; simp at h1
          · rw [h0] at h1
            simp at h1
            rw [h1] at h0
            exact ⟨t0, by simpa using h0⟩
        have := h.newline A0 t0 q0 [] [] (by rw [ht]; simp) h2
        exact this.2 rfl
      · rcases h'.needed A0 r0 r B (by simp) he with ⟨q, t, h1, -⟩ | ⟨-, -, h3⟩
        · rw [hr] at h1; cases h1
        · by_cases hA : r0 ≠ [] ∨ A0 = []
          · have := h.room A0 r0 (by simp) hA
            omega
          · have hA1 : A0 ≠ [] := fun h => hA (.inr h)
            have hr : r0 = [] := by
              by_cases hr : r0 = []
              · exact hr
              · exact absurd (.inl hr) hA
            simp [startCol, hA1, hr, width] at h3
            omega
  | r :: B, [], A, h, h' => (arranged_same h0 hw [] (r :: B) A h' h).symm
  | r :: B, r' :: B', A, h, h' => by
    have hf : r ++ B.flatten = r' ++ B'.flatten := by
      have := h.all.trans h'.all.symm
      simpa using this
    rcases prefix_cases hf with h1 | ⟨q, u, h1, h2⟩ | ⟨q, u, h1, h2⟩
    · subst h1
      rw [arranged_same h0 hw B B' (A ++ [r]) (by simpa using h) (by simpa using h')]
    · rw [h1] at h'
      exact (no_longer hw h h' h2).elim
    · rw [h1] at h
      exact (no_longer hw h' h h2).elim
termination_by rows rows' => 2 * rows.length + rows'.length
decreasing_by all_goals simp_wf <;> omega

end Clink.Display
