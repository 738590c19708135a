import Verif.Proof.AbbrevPart
/- Helper lemmas for C55: all directory names, and what comes before and after. -/
namespace Clink.Abbrev
open Spec Clink.Utf
open Clink.StrCompare (isSep)

variable {e : Env} {k : Disk}

theorem notSep {c : Nat} (h : ¬ Slash c) : isSep c = false := by
  rw [← isSep_iff] at h; simpa using h

theorem getLastD_flat {f : Nat → List Nat} (hf : ∀ c, f c ≠ [] ∧ ∀ b ∈ f c, isSep b = isSep c) {s : List Nat}
    (hs : s ≠ []) : isSep ((s.flatMap f).getLastD 0) = isSep (s.getLast hs) := by
  have h : s.flatMap f = (s.dropLast).flatMap f ++ f (s.getLast hs) := by
    conv => lhs; rw [← List.dropLast_concat_getLast hs]
    simp
  have h2 := (hf (s.getLast hs)).1
  rw [h, List.getLastD_eq_getLast?, List.getLast?_append, List.getLast?_eq_some_getLast h2]
  exact (hf _).2 _ (List.getLast_mem h2)

theorem last_u16 {s : List Nat} (hs : s ≠ []) : isSep ((u16 s).getLastD 0) = isSep (s.getLast hs) := getLastD_flat uni16 hs
theorem last_u8 {s : List Nat} (hs : s ≠ []) : isSep ((u8 s).getLastD 0) = isSep (s.getLast hs) := getLastD_flat uni8 hs

theorem piece_last {p : Piece} (hp : p.Ok) : isSep ((u16 p.text).getLastD 0) = false := by
  have h : p.text ≠ [] := by simp [Piece.text, hp.some]
  rw [last_u16 h]
  have : p.text.getLast h = p.name.getLast hp.some := by simp [Piece.text, hp.some]
  rw [this]
  exact notSep (hp.name _ (List.getLast_mem _))

theorem piece_head {p : Piece} (hp : p.Ok) :
    (if isSep ((u16 p.text).headD 0) = true then [(u16 p.text).headD 0] else []) = u16 (p.seps.take 1) := by
  cases hs : p.seps with
  | nil =>
    cases hn : p.name with
    | nil => exact absurd hn hp.some
    | cons c r =>
      have h1 := uni16 c
      obtain ⟨b, r', hb⟩ := List.exists_cons_of_ne_nil h1.1
      have h2 := h1.2 b (by simp [hb])
      rw [notSep (hp.name c (by simp [hn]))] at h2
      simp [Piece.text, hs, hn, u16, hb, h2]
  | cons c r =>
    have hc : Slash c := hp.seps c (by simp [hs])
    have hc' : c < 128 := by unfold Slash at hc; omega
    have h1 : specUtf16 c = [c] := spec16_small hc'
    simp [Piece.text, hs, u16, h1, (isSep_iff c).2 hc]

theorem folders_plain (hs : Shows e k) {base : List Nat} {p : Piece} {d : List Nat} (h : d ∈ folders k base p) :
    Plain d ∧ d ≠ [] ∧ ∀ c ∈ d, ¬ Slash c := by
  unfold folders at h
  rw [List.mem_map] at h
  obtain ⟨x, hx, rfl⟩ := h
  exact found_plain hs base p x (List.mem_filter.1 hx).1

theorem Spec.Chosen.mem {base : List Nat} {p : Piece} {d : List Nat} (h : Chosen k base p d) : d ∈ folders k base p :=
  List.mem_of_mem_head? h.1

theorem Spec.Walk.plain (hs : Shows e k) {base out : List Nat} {ps : List Piece} (h : Walk k base ps out)
    (hp : ∀ p ∈ ps, p.Ok) (hb : Plain base) : Plain out := by
  induction h with
  | nil => exact hb
  | @cons base p ps d out h hs' ih =>
    refine ih (fun q hq => hp q (by simp [hq])) ?_
    exact (hb.append (plain_seps fun c hc => (hp p (by simp)).seps c (List.mem_of_mem_take hc))).append
      (folders_plain hs h.mem).1

/-- After a walk the loop goes on with what follows. -/
theorem loop_walk (hs : Shows e k) {base out : List Nat} {ps : List Piece} (h : Walk k base ps out) (hp : ∀ p ∈ ps, p.Ok)
    (hq : ∀ q ∈ ps.drop 1, q.seps ≠ []) (hb : Plain base) (r : List Nat) (hr : ∀ c, r.head? = some c → Slash c) (u : Bool) :
    loop e (u8 (ps.flatMap Piece.text ++ r)) (u16 base) u = loop e (u8 r) (u16 out) (u || !ps.isEmpty) := by
  induction h generalizing u with
  | nil => simp
  | @cons base p ps d out h hw ih =>
    have hpo := hp p (by simp)
    have hd := folders_plain hs h.mem
    have hb' : Plain (base ++ p.seps.take 1 ++ d) :=
      (hb.append (plain_seps fun c hc => hpo.seps c (List.mem_of_mem_take hc))).append hd.1
    have ih := ih (fun q hq => hp q (by simp [hq])) (fun q hq' => hq q (by
      simp only [List.drop_succ_cons, List.drop_zero]; exact List.mem_of_mem_drop hq')) hb' true
    have hr' : ∀ c, (ps.flatMap Piece.text ++ r).head? = some c → Slash c := by
      intro c hc
      cases ps with
      | nil => exact hr c (by simpa using hc)
      | cons q ps =>
        have h1 := hq q (by simp)
        cases h2 : q.seps with
        | nil => exact absurd h2 h1
        | cons x xs =>
          simp [Piece.text, h2] at hc
          subst hc; exact (hp q (by simp)).seps x (by simp [h2])
    have hn : (p :: ps).flatMap Piece.text ++ r = p.text ++ (ps.flatMap Piece.text ++ r) := by simp
    have hne : u8 ((p :: ps).flatMap Piece.text ++ r) ≠ [] := by
      rw [Ne, u8_inj_nil, hn]; simp [Piece.text, hpo.some]
    have hnp := nextPart_piece hpo hr'
    rw [hn] at hne ⊢
    rw [loop, dif_neg hne]
    simp only [hnp, wide_u8 hpo.plainText.text, piece_last hpo, Bool.false_eq_true, if_false,
      (component_eq hs hb hpo).2.1 d h, piece_head hpo, if_true]
    rw [← u16_append, ← u16_append, ih]
    simp

theorem loop_several (hs : Shows e k) {base : List Nat} {p : Piece} (hpo : p.Ok) (hb : Plain base) {d1 d2 : List Nat}
    (h : Several k base p d1 d2) (r : List Nat) (hr : ∀ c, r.head? = some c → Slash c) (u : Bool) :
    ∃ add, Becomes e k base p d1 d2 add ∧
      loop e (u8 (p.text ++ r)) (u16 base) u = some (u8 r, u16 (base ++ p.seps.take 1 ++ add), false) := by
  obtain ⟨add, ha, hc⟩ := (component_eq hs hb hpo).2.2 d1 d2 h
  refine ⟨add, ha, ?_⟩
  have hne : u8 (p.text ++ r) ≠ [] := by
    rw [Ne, u8_inj_nil]; simp [Piece.text, hpo.some]
  rw [loop, dif_neg hne]
  simp only [nextPart_piece hpo hr, wide_u8 hpo.plainText.text, piece_last hpo, Bool.false_eq_true, if_false,
      hc, piece_head hpo]
  rw [u16_append, u16_append]

theorem loop_missing (hs : Shows e k) {base : List Nat} {p : Piece} (hpo : p.Ok) (hb : Plain base)
    (h : folders k base p = []) (r : List Nat) (hr : ∀ c, r.head? = some c → Slash c) (u : Bool) :
    loop e (u8 (p.text ++ r)) (u16 base) u = none := by
  have hne : u8 (p.text ++ r) ≠ [] := by
    rw [Ne, u8_inj_nil]; simp [Piece.text, hpo.some]
  rw [loop, dif_neg hne]
  simp only [nextPart_piece hpo hr, wide_u8 hpo.plainText.text, piece_last hpo, Bool.false_eq_true, if_false,
      (component_eq hs hb hpo).1 h]

theorem loop_end (e : Env) {s : List Nat} (h : ∀ c ∈ s, Slash c) (dis : List Nat) (u : Bool) :
    loop e (u8 s) dis u = some ([], dis ++ s.drop (s.length - 1), u) := by
  rw [u8_seps h]
  by_cases h0 : s = []
  · subst h0; rw [loop, dif_pos rfl]; simp
  · rw [loop, dif_neg h0]
    have hw : wide s = s := by
      have := wide_u8 (fun c hc => (sep_text (h c hc)).1)
      rwa [u8_seps h, u16_seps h] at this
    have hl : s.getLastD 0 = s.getLast h0 := by rw [List.getLastD_eq_getLast?, List.getLast?_eq_some_getLast h0]; rfl
    have hsep : isSep (s.getLast h0) = true := (isSep_iff _).2 (h _ (List.getLast_mem h0))
    simp only [nextPart_seps h, hw, hl, hsep, if_true]
    have : s.drop (s.length - 1) = [s.getLast h0] := by
      conv => lhs; rw [← List.dropLast_concat_getLast h0]
      simp
    rw [this]

/-! ## What comes before -/

theorem lastSep_eq {a b : List Nat} {c : Nat} (hc : isSep c = true) (hb : ∀ x ∈ b, isSep x = false) :
    lastSep (a ++ c :: b) (a ++ c :: b).length = some a.length := by
  have key : ∀ j, j ≤ b.length → lastSep (a ++ c :: b) (a.length + 1 + j) = some a.length := by
    intro j
    induction j with
    | zero => intro _; simp [lastSep, hc]
    | succ j ih =>
      intro hj
      rw [← Nat.add_assoc, lastSep]
      have : (a ++ c :: b).getD (a.length + 1 + j) 0 = b[j]'(by omega) := by
        rw [List.getD_eq_getElem?_getD, List.getElem?_append_right (by omega)]
        have : a.length + 1 + j - a.length = j + 1 := by omega
        rw [this, List.getElem?_cons_succ, List.getElem?_eq_getElem (by omega)]; rfl
      rw [this, hb _ (List.getElem_mem _)]
      simp [ih (by omega)]
  have := key b.length (Nat.le_refl _)
  simp only [List.length_append, List.length_cons]
  rwa [Nat.add_assoc, Nat.add_comm 1] at this

/-- Neither a share nor `\\?\`. -/
theorem before_eq {x y : Nat} (r : List Nat) (h : ¬ (isSep x = true ∧ isSep y = true)) :
    Path.isUnc (x :: y :: r) 0 = some none ∧ isIncompleteUnc (x :: y :: r) = some false ∧
    Path.pastSsqs (x :: y :: r) 0 = some 0 ∧
    getDrive (x :: y :: r) 0 = some (if x ≠ 0 ∧ y = 58 ∧ isLetter x = true then some [x, 58] else none) := by
  have e0 : Path.rd (x :: y :: r) 0 = some x := rfl
  have e1 : Path.rd (x :: y :: r) (0 + 1) = some y := rfl
  have e1' : Path.rd (x :: y :: r) 1 = some y := rfl
  have hp : Path.pastSsqs (x :: y :: r) 0 = some 0 := by
    unfold Path.pastSsqs
    simp only [e0, e1, Option.bind_eq_bind, Option.bind_some]
    cases hx : isSep x <;> cases hy : isSep y <;> simp_all
  refine ⟨?_, ?_, hp, ?_⟩
  · unfold Path.isUnc
    simp only [e0, e1, Option.bind_eq_bind, Option.bind_some]
    cases hx : isSep x <;> cases hy : isSep y <;> simp_all
  · unfold isIncompleteUnc
    simp only [e0, e1', Option.bind_eq_bind, Option.bind_some]
    cases hx : isSep x <;> cases hy : isSep y <;> simp_all
  · unfold getDrive
    simp only [hp, e0, e1', Option.bind_eq_bind, Option.bind_some, Nat.add_zero]
    by_cases h0 : x = 0
    · simp [h0]
    · by_cases h1 : y = 58
      · simp [h0, h1]
      · simp [h0, h1]

theorem isLetter_iff (c : Nat) : isLetter c = true ↔ Letter c := by
  simp [isLetter, Letter]

end Clink.Abbrev
