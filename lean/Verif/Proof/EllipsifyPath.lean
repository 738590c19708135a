import Verif.Proof.EllipsifyCut

/-!
Proofs about `ellipsify_ex` for paths.
-/

namespace Clink.Ellipsify

open Utf (IsText specUtf8)
open Doskey (peek next between)
open Doskey.Spec (flat)
open Ecma48 (flat_cons flat_append Fresh bufferLimit Piece State nextCode)
open Ecma48.Spec (Code Printable Stop Kind)
open Spec

variable {env : Env}

abbrev Unit' := List Nat ⊕ Nat

theorem units_append (a b : List Item) : units (a ++ b) = units a ++ units b := by simp [units]

theorem units_glyphs (gs : List (List Nat × Int)) : units (gs.map glyphItem) = ((gs.map (·.1)).flatten).map .inr := by
  induction gs with
  | nil => rfl
  | cons g gs ih =>
    rw [List.map_cons, List.map_cons, List.flatten_cons, List.map_append, ← ih]
    rfl

theorem unitText_append (a b : List Unit') : unitText (a ++ b) = unitText a ++ unitText b := by simp [unitText]

theorem unitText_chars (t : List Nat) : unitText (t.map .inr) = t := by
  induction t with
  | nil => rfl
  | cons c t ih =>
    rw [List.map_cons, show unitText (.inr c :: t.map .inr) = c :: unitText (t.map .inr) from rfl, ih]

theorem units_text (is : List Item) : unitText (units is) = text is := by
  induction is with
  | nil => rfl
  | cons i is ih =>
    rw [show i :: is = [i] ++ is from rfl, units_append, unitText_append, ih, text_append]
    congr 1
    cases i with
    | code w => simp [units, unitText, text, Item.text]
    | glyph w n =>
      rw [show units [.glyph w n] = w.map .inr by simp [units], unitText_chars]
      simp [text, Item.text]

/-- The loop over the drive, on codes and characters. -/
def drv : List Unit' → Nat → Nat → Option Nat
  | [], _, _ => none
  | .inl w :: us, k, at_ => drv us k (at_ + (flat w).length)
  | .inr c :: us, k, at_ =>
    if k = 0 then if 97 ≤ c ∧ c ≤ 122 ∨ 65 ≤ c ∧ c ≤ 90 then drv us 1 (at_ + 1) else none
    else if k = 1 then if c = 58 then drv us 2 (at_ + 1) else none
    else some at_

theorem ascii_length {c : Nat} (h : c < 0x80) : (specUtf8 c).length = 1 := by simp [specUtf8, h]

theorem drv_chars (t : List Nat) : ∀ (us : List Unit') (k at_ : Nat), drv (t.map .inr ++ us) k at_ =
    match driveChars t k at_ with
    | .go k at_ => drv us k at_
    | .no => none
    | .yes at_ => some at_ := by
  induction t with
  | nil => intro us k at_; rfl
  | cons c t ih =>
    intro us k at_
    rw [List.map_cons, List.cons_append, drv, driveChars]
    by_cases h0 : k = 0
    · rw [if_pos h0, if_pos h0]
      by_cases h1 : 97 ≤ c ∧ c ≤ 122 ∨ 65 ≤ c ∧ c ≤ 90
      · rw [if_pos h1, if_pos h1]; exact ih us 1 _
      · rw [if_neg h1, if_neg h1]
    · rw [if_neg h0, if_neg h0]
      by_cases h1 : k = 1
      · rw [if_pos h1, if_pos h1]
        by_cases h2 : c = 58
        · rw [if_pos h2, if_pos h2]; exact ih us 2 _
        · rw [if_neg h2, if_neg h2]
      · rw [if_neg h1, if_neg h1]

theorem driveChars_at (t : List Nat) : ∀ (k at_ k' at' : Nat), driveChars t k at_ = .go k' at' → at' = at_ + (flat t).length := by
  induction t with
  | nil => intro k at_ k' at' h; simp [driveChars] at h; simp [flat, h.2]
  | cons c t ih =>
    intro k at_ k' at' h
    rw [driveChars] at h
    rw [flat_cons, List.length_append]
    by_cases h0 : k = 0
    · rw [if_pos h0] at h
      by_cases h1 : 97 ≤ c ∧ c ≤ 122 ∨ 65 ≤ c ∧ c ≤ 90
      · rw [if_pos h1] at h; rw [ih _ _ _ _ h, ascii_length (by omega)]; omega
      · rw [if_neg h1] at h; simp at h
    · rw [if_neg h0] at h
      by_cases h1 : k = 1
      · rw [if_pos h1] at h
        by_cases h2 : c = 58
        · rw [if_pos h2] at h; rw [ih _ _ _ _ h, ascii_length (by omega)]; omega
        · rw [if_neg h2] at h; simp at h
      · rw [if_neg h1] at h; simp at h

theorem driveEnd_units {expand : Bool} (n : Nat) {ps : List (Piece × List Nat)} {cs : List Nat} {is : List Item} (hm : Match env expand ps cs is) :
    ∀ k, (flat cs).length ≤ n → driveEnd n ps k (n - (flat cs).length) = drv (units is) k (n - (flat cs).length) := by
  induction hm with
  | nil => intro k _; rfl
  | @code p w rest ps is h1 h2 h3 ih =>
    intro k hn
    rw [flat_append, List.length_append] at hn ⊢
    rw [driveEnd, if_neg (by simp [h1]), ih k (by omega), show units (.code w :: is) = .inl w :: units is from rfl, drv]
    congr 1
    omega
  | @text p t rest gs ps is h1 h2 h3 h4 h5 h6 h7 ih =>
    intro k hn
    rw [flat_append, List.length_append] at hn ⊢
    rw [driveEnd, if_pos h1, units_append, units_glyphs, h5, drv_chars, h4]
    cases hd : driveChars t k (n - ((flat t).length + (flat rest).length)) with
    | no => rfl
    | yes a => rfl
    | go k' a =>
      have := driveChars_at _ _ _ _ _ hd
      simp only
      rw [show a = n - (flat rest).length by omega]
      exact ih k' (by omega)

/-- What the loop wants to see. -/
def Want (k : Nat) (v : List Nat) : Prop := (k = 0 ∧ ∃ c, v = [c, 58] ∧ Letter c) ∨ (k = 1 ∧ v = [58]) ∨ (2 ≤ k ∧ v = [])

theorem visible_inl (w : List Nat) (us : List Unit') : visible (.inl w :: us) = visible us := rfl
theorem visible_inr (c : Nat) (us : List Unit') : visible (.inr c :: us) = c :: visible us := rfl
theorem unitText_inl (w : List Nat) (us : List Unit') : unitText (.inl w :: us) = w ++ unitText us := rfl
theorem unitText_inr (c : Nat) (us : List Unit') : unitText (.inr c :: us) = c :: unitText us := rfl

theorem drv_of (us : List Unit') (z : Nat) (vs : List Unit') : ∀ k at_, Want k (visible us) →
    drv (us ++ .inr z :: vs) k at_ = some (at_ + (flat (unitText us)).length) := by
  induction us with
  | nil =>
    intro k at_ h
    rcases h with ⟨-, c, h, -⟩ | ⟨-, h⟩ | ⟨h, -⟩
    · simp [visible] at h
    · simp [visible] at h
    · rw [List.nil_append, drv, if_neg (by omega), if_neg (by omega)]; rfl
  | cons u us ih =>
    intro k at_ h
    cases u with
    | inl w =>
      rw [List.cons_append, drv, ih k _ h, unitText_inl, flat_append, List.length_append, Nat.add_assoc]
    | inr c =>
      rw [visible_inr] at h
      rw [List.cons_append, drv, unitText_inr, flat_cons, List.length_append]
      rcases h with ⟨h1, d, h, h2⟩ | ⟨h1, h⟩ | ⟨-, h⟩
      · simp at h
        obtain ⟨rfl, h3⟩ := h
        have h2' : 97 ≤ c ∧ c ≤ 122 ∨ 65 ≤ c ∧ c ≤ 90 := h2
        rw [if_pos h1, if_pos h2', ih 1 _ (.inr (.inl ⟨rfl, h3⟩)), ascii_length (by omega), Nat.add_assoc]
      · simp at h
        obtain ⟨rfl, h3⟩ := h
        rw [if_neg (by omega), if_pos h1, if_pos rfl, ih 2 _ (.inr (.inr ⟨by omega, h3⟩)), ascii_length (by omega), Nat.add_assoc]
      · simp at h

theorem drv_some (us : List Unit') : ∀ k at_ m, drv us k at_ = some m → ∃ de z re, us = de ++ .inr z :: re ∧ Want k (visible de) := by
  induction us with
  | nil => intro k at_ m h; simp [drv] at h
  | cons u us ih =>
    intro k at_ m h
    cases u with
    | inl w =>
      rw [drv] at h
      obtain ⟨de, z, re, h1, h2⟩ := ih _ _ _ h
      exact ⟨.inl w :: de, z, re, by rw [h1]; rfl, h2⟩
    | inr c =>
      rw [drv] at h
      by_cases h0 : k = 0
      · rw [if_pos h0] at h
        by_cases h1 : 97 ≤ c ∧ c ≤ 122 ∨ 65 ≤ c ∧ c ≤ 90
        · rw [if_pos h1] at h
          obtain ⟨de, z, re, h2, h3⟩ := ih _ _ _ h
          refine ⟨.inr c :: de, z, re, by rw [h2]; rfl, .inl ⟨h0, c, ?_, h1⟩⟩
          rcases h3 with ⟨h3, -⟩ | ⟨-, h3⟩ | ⟨h3, -⟩
          · omega
          · rw [visible_inr, h3]
          · omega
        · rw [if_neg h1] at h; simp at h
      · rw [if_neg h0] at h
        by_cases h1 : k = 1
        · rw [if_pos h1] at h
          by_cases h2 : c = 58
          · rw [if_pos h2] at h
            obtain ⟨de, z, re, h3, h4⟩ := ih _ _ _ h
            refine ⟨.inr c :: de, z, re, by rw [h3]; rfl, .inr (.inl ⟨h1, ?_⟩)⟩
            rcases h4 with ⟨h4, -⟩ | ⟨h4, -⟩ | ⟨-, h4⟩
            · omega
            · omega
            · rw [visible_inr, h4, h2]
          · rw [if_neg h2] at h; simp at h
        · exact ⟨[], c, us, rfl, .inr (.inr ⟨by omega, rfl⟩)⟩

/-- The text behind the first code or character. -/
theorem doc_tail {cs : List Nat} {is : List Item} (h : Doc env cs is) {u : Unit'} {us : List Unit'} (hu : units is = u :: us) :
    ∃ is', Doc env (unitText us) is' ∧ units is' = us ∧ (∀ w, u = .inl w → ∃ k x, Code k x w) ∧ (∀ c, u = .inr c → Printable c ∧ Goes (unitText us)) := by
  cases h with
  | nil => simp [units] at hu
  | @code k x w rest is h1 h2 =>
    rw [show units (.code w :: is) = .inl w :: units is from rfl] at hu
    injection hu with h3 h4
    subst h3 h4
    rw [units_text, doc_text h2]
    refine ⟨is, h2, rfl, ?_, ?_⟩
    · intro w' hw; simp at hw; subst hw; exact ⟨k, x, h1⟩
    · intro c hc; simp at hc
  | @text t rest gs is h1 h2 h3 h4 h5 =>
    cases t with
    | nil => exact absurd rfl h1
    | cons c t =>
      rw [show (fun g : List Nat × Int => Item.glyph g.1 g.2) = glyphItem from rfl, units_append, units_glyphs, glyphs_text h4, List.map_cons, List.cons_append] at hu
      injection hu with h6 h7
      subst h6 h7
      obtain ⟨gs', h8⟩ := glyphs_exist (env := env) t.length t (Nat.le_refl _)
      have hp : ∀ c ∈ t, Printable c := fun x hx => h2 x (by simp [hx])
      rw [unitText_append, unitText_chars, units_text, doc_text h5]
      refine ⟨_, doc_run hp h3 h8 h5, ?_, ?_, ?_⟩
      · rw [units_append, units_glyphs, glyphs_text h8]
      · intro w hw; simp at hw
      · intro d hd
        simp at hd; subst hd
        refine ⟨h2 c (by simp), ?_⟩
        intro x hx
        cases t with
        | nil => exact .inr (h3 x (by simpa using hx))
        | cons y t => simp at hx; subst hx; exact .inl (hp y (by simp))

/-- Dividing a text whose visible characters before the division are plain. -/
theorem doc_front (de : List Unit') : ∀ {cs : List Nat} {is : List Item} {re : List Unit'}, Doc env cs is → units is = de ++ re →
    (∀ c ∈ visible de, Plain env c) → NoVariant env cs →
    (∃ ir, Doc env (unitText re) ir ∧ units ir = re ∧
      ∀ ir, Doc env (unitText re) ir → ∃ is', Doc env cs is' ∧ width false is' = plainWidth env (visible de) + width false ir) ∧
    ∃ id, Doc env (unitText de) id ∧ units id = de ∧ width false id = plainWidth env (visible de) := by
  induction de with
  | nil =>
    intro cs is re h hu _ _
    rw [List.nil_append] at hu
    refine ⟨?_, [], .nil, rfl, rfl⟩
    rw [← hu, units_text, doc_text h]
    exact ⟨is, h, hu.symm ▸ rfl, fun ir hir => ⟨ir, hir, by simp [visible, plainWidth]⟩⟩
  | cons u de ih =>
    intro cs is re h hu hp hv
    rw [List.cons_append] at hu
    obtain ⟨is2, h1, h2, h3, h4⟩ := doc_tail h hu
    have hcs : cs = unitText (u :: (de ++ re)) := by rw [← hu, units_text, doc_text h]
    cases u with
    | inl w =>
      obtain ⟨k, x, hc⟩ := h3 w rfl
      rw [unitText_inl] at hcs
      obtain ⟨⟨ir, h5, h6, h7⟩, id, h8, h9, h10⟩ := ih h1 h2 hp (fun hcol c hc => hv hcol c (by rw [hcs]; simp [hc]))
      refine ⟨⟨ir, h5, h6, ?_⟩, .code w :: id, ?_, ?_, ?_⟩
      · intro ir hir
        obtain ⟨is', h11, h12⟩ := h7 ir hir
        refine ⟨.code w :: is', ?_, ?_⟩
        · rw [hcs]; exact .code hc h11
        · rw [width_cons, h12, visible_inl]; simp [Item.cells]
      · rw [unitText_inl]; exact .code hc h8
      · rw [show units (.code w :: id) = .inl w :: units id from rfl, h9]
      · rw [width_cons, h10, visible_inl]; simp [Item.cells]
    | inr c =>
      obtain ⟨-, hg⟩ := h4 c rfl
      rw [unitText_inr] at hcs
      rw [visible_inr] at hp
      have hv' : NoVariant env (unitText (de ++ re)) := fun hcol c hc => hv hcol c (by rw [hcs]; simp [hc])
      obtain ⟨⟨ir, h5, h6, h7⟩, id, h8, h9, h10⟩ := ih h1 h2 (fun x hx => hp x (by simp [hx])) hv'
      have hpc : ∀ x ∈ [c], Plain env x := fun x hx => hp x (by simp at hx; simp [hx])
      refine ⟨⟨ir, h5, h6, ?_⟩, ?_⟩
      · intro ir hir
        obtain ⟨is', h11, h12⟩ := h7 ir hir
        obtain ⟨is3, h13, h14, -⟩ := doc_pushes false hpc h11 hg hv'
        refine ⟨is3, by rw [hcs]; exact h13, ?_⟩
        rw [h14, h12, visible_inr, plainWidth_cons, plainWidth_cons, plainWidth_nil]; omega
      · have hg' : Goes (unitText de) := by
          intro x hx
          refine hg x ?_
          rw [unitText_append]
          cases hd : unitText de with
          | nil => rw [hd] at hx; simp at hx
          | cons y l => rw [hd] at hx; simpa using hx
        obtain ⟨is3, h13, h14, h15⟩ := doc_pushes false hpc h8 hg' (fun hcol x hx => hv' hcol x (by rw [unitText_append]; simp [hx]))
        refine ⟨is3, h13, ?_, ?_⟩
        · rw [h15, h9]; rfl
        · rw [h14, h10, visible_inr, plainWidth_cons, plainWidth_cons, plainWidth_nil]; omega

theorem flat_le {a b : List Nat} : (flat a).length ≤ (flat (a ++ b)).length ∧ (flat b).length ≤ (flat (a ++ b)).length := by
  rw [flat_append, List.length_append]; omega

/-- How a path is divided. -/
theorem path_split (hz : env.variant 0 = false) {cs : List Nat} {is : List Item} (h : Doc env cs is) (ht : ∀ c ∈ cs, IsText c)
    (hl : (flat cs).length ≤ bufferLimit) (hv : NoVariant env cs) (hpl : ∀ c, Letter c ∨ c = 58 → Plain env c) {d r : List Nat} {n : Int}
    (hs : PathSplit env is d r n) :
    cs = d ++ r ∧ (driveEnd (flat cs).length (piecesAt (flat cs)) 0 0).getD 0 = (flat d).length ∧ cellCount env false (flat d) = n ∧
      (∃ ir, Doc env r ir) ∧ (∀ ir, Doc env r ir → width false is = n + width false ir) := by
  have hm := piecesAt_doc hz false h ht hl
  have hde := driveEnd_units (flat cs).length hm 0 (Nat.le_refl _)
  rw [Nat.sub_self] at hde
  have hcount : ∀ is', Doc env cs is' → width false is' = width false is := by
    intro is' h'
    rw [← cellCount_doc hz false h' ht hl, cellCount_doc hz false h ht hl]
  rcases hs with ⟨c, ⟨us, z, vs, h1, h2, h3, rfl, rfl⟩, rfl⟩ | ⟨h1, rfl, rfl, rfl⟩
  · have hcs : cs = unitText us ++ unitText (.inr z :: vs) := by rw [← unitText_append, ← h1, units_text, doc_text h]
    have hpv : ∀ x ∈ visible us, Plain env x := by
      intro x hx
      rw [h2] at hx
      simp at hx
      rcases hx with rfl | rfl
      · exact hpl _ (.inl h3)
      · exact hpl _ (.inr rfl)
    have hpw : plainWidth env (visible us) = env.wc c + env.wc 58 := by rw [h2]; simp [plainWidth]
    obtain ⟨⟨ir, h5, h6, h7⟩, id, h8, h9, h10⟩ := doc_front us h h1 hpv hv
    refine ⟨hcs, ?_, ?_, ⟨ir, h5⟩, ?_⟩
    · rw [hde, h1, drv_of us z vs 0 0 (.inl ⟨rfl, c, h2, h3⟩)]
      simp
    · rw [cellCount_doc hz false h8 (fun x hx => ht x (by rw [hcs]; simp [hx])) (by rw [hcs] at hl; exact Nat.le_trans flat_le.1 hl), h10, hpw]
    · intro ir hir
      obtain ⟨is', h11, h12⟩ := h7 ir hir
      rw [← hcount is' h11, h12, hpw]
  · have hcs := doc_text h
    refine ⟨by rw [List.nil_append, hcs], ?_, ?_, ⟨is, by rw [hcs]; exact h⟩, ?_⟩
    · rw [hde]
      cases hd : drv (units is) 0 0 with
      | none => rfl
      | some m =>
        obtain ⟨de, z, re, h2, h3⟩ := drv_some _ _ _ _ hd
        rcases h3 with ⟨-, c, h3, h4⟩ | ⟨h3, -⟩ | ⟨h3, -⟩
        · exact absurd ⟨c, _, _, de, z, re, h2, h3, h4, rfl, rfl⟩ h1
        · omega
        · omega
    · exact cellCount_nil false
    · intro ir hir
      rw [hcs] at hir
      rw [hcount ir hir]; omega

/-- The whole ellipsis fits. -/
theorem fitting_all {el e : List Nat} {room : Int} (he : ∀ c ∈ el, Plain env c) (h : Fitting env el room e) (hr : plainWidth env el ≤ room) : e = el := by
  obtain ⟨more, h1, h2, h3⟩ := h
  cases more with
  | nil => rw [h1, List.append_nil]
  | cons c r =>
    have h4 := h3 c r rfl
    rw [h1, plainWidth_append, plainWidth_cons] at hr
    have := plainWidth_nonneg (env := env) (e := r) (fun x hx => he x (by rw [h1]; simp [hx]))
    omega

theorem ex_path_eq (hz : env.variant 0 = false) (k : Nat) {cs : List Nat} {is : List Item} (h : Doc env cs is) (ht : ∀ c ∈ cs, IsText c)
    (hl : (flat cs).length ≤ bufferLimit) (hv : NoVariant env cs) (hpl : ∀ c, Letter c ∨ c = 58 → Plain env c) {d r : List Nat} {n : Int}
    (hs : PathSplit env is d r n) {limit : Int} (h0 : 0 ≤ limit) (hf : limit < width false is) {el : List Nat} {o : Option (List Nat)}
    (ho : Ell env el o) (he : ∀ c ∈ el, Plain env c) (hel : (flat el).length ≤ bufferLimit) :
    (n + plainWidth env el ≤ limit → ∀ ir, Doc env r ir → ∃ before g after, CutLeft env false ir (limit - n) el before after g ∧
      width false after + plainWidth env el ≤ limit - n ∧
      ex env (k + 4) (flat cs) limit .path o false =
        some ⟨flat (d ++ (text (codes before) ++ el ++ text after)), n + (plainWidth env el + width false after), true⟩) ∧
    (limit < n + plainWidth env el → ex env (k + 4) (flat cs) limit .path o false = ex env (k + 3) (flat cs) limit .right o false) := by
  obtain ⟨h1, h2, h3, ⟨ir0, h4⟩, h5⟩ := path_split hz h ht hl hv hpl hs
  have hpe := plainWidth_nonneg he
  have hcut : ∀ ir, Doc env r ir → 0 ≤ limit - n → ∃ before g after e, CutLeft env false ir (limit - n) el before after g ∧
      Fitting env el (limit - n - width false after) e ∧
      ex env (k + 3) (flat r) (limit - n) .left o false =
        some ⟨flat (text (codes before) ++ e ++ text after), plainWidth env e + width false after, true⟩ := by
    intro ir hir hn
    exact ex_left hz k hir (fun x hx => ht x (by rw [h1]; simp [hx])) (by rw [h1] at hl; exact Nat.le_trans flat_le.2 hl) hn (by have := h5 ir hir; omega) ho he hel
  have hex : ex env (k + 4) (flat cs) limit .path o false =
      if limit ≥ n then (ex env (k + 3) (flat r) (limit - n) .left o false).bind fun q =>
        if q.width ≥ plainWidth env el ∧ limit ≥ n + q.width then some ⟨flat d ++ q.out, n + q.width, q.truncated⟩ else ex env (k + 3) (flat cs) limit .right o false
      else ex env (k + 3) (flat cs) limit .right o false := by
    rw [show k + 4 = (k + 3) + 1 from rfl, ex.eq_def]
    simp only
    rw [cellCount_doc hz false h ht hl, if_neg (by omega), ell_cells hz ho he hel, h2]
    have ht1 : (flat cs).take (flat d).length = flat d := by rw [h1, flat_append, List.take_left]
    have ht2 : (flat cs).drop (flat d).length = flat r := by rw [h1, flat_append, List.drop_left]
    rw [ht1, ht2, h3]
  have hroom : ∀ {ir before after g}, CutLeft env false ir (limit - n) el before after g → width false after ≤ limit - n - plainWidth env el ∨ width false after = 0 := by
    intro ir before after g hc
    rcases hc.room with hh | hh
    · exact .inl hh
    · exact .inr (width_codes _ _ hh)
  constructor
  · intro hn ir hir
    obtain ⟨before, g, after, e, h6, h7, h8⟩ := hcut ir hir (by omega)
    have h9 := hroom h6
    have hee : e = el := fitting_all he h7 (by omega)
    subst hee
    have := width_nonneg false after
    refine ⟨before, g, after, h6, by omega, ?_⟩
    rw [hex, if_pos (by omega), h8]
    simp only [Option.bind_some]
    rw [if_pos ⟨by omega, by omega⟩, flat_append d]
  · intro hn
    rw [hex]
    by_cases h6 : limit ≥ n
    · rw [if_pos h6]
      obtain ⟨before, g, after, e, h7, h8, h9⟩ := hcut ir0 h4 (by omega)
      have h10 := hroom h7
      have hw := width_nonneg false after
      rw [h9]
      simp only [Option.bind_some]
      obtain ⟨more, h11, h12, -⟩ := h8
      rw [if_neg (by rintro ⟨h13, -⟩; omega)]
    · rw [if_neg h6]

/-! ### The width of the result -/

theorem goes_append {a b : List Nat} (ha : Goes a) (hb : Goes b) : Goes (a ++ b) := by
  cases a with
  | nil => exact hb
  | cons x a => intro c hc; exact ha c (by simpa using hc)

/-- A text whose visible characters are plain, and another one. -/
theorem doc_join {x : List Nat} {ix : List Item} (hx : Doc env x ix) (hgx : Goes x) (de : List Unit') : ∀ {d : List Nat} {id : List Item}, Doc env d id → units id = de →
    (∀ c ∈ visible de, Plain env c) → NoVariant env (d ++ x) →
    ∃ is', Doc env (d ++ x) is' ∧ width false is' = plainWidth env (visible de) + width false ix := by
  induction de with
  | nil =>
    intro d id h hu _ _
    have : d = [] := by rw [← doc_text h, ← units_text, hu]; rfl
    subst this
    exact ⟨ix, hx, by simp [visible, plainWidth]⟩
  | cons u de ih =>
    intro d id h hu hp hv
    obtain ⟨id2, h1, h2, h3, h4⟩ := doc_tail h hu
    have hd : d = unitText (u :: de) := by rw [← hu, units_text, doc_text h]
    cases u with
    | inl w =>
      obtain ⟨k, y, hc⟩ := h3 w rfl
      rw [unitText_inl] at hd
      obtain ⟨is', h5, h6⟩ := ih h1 h2 hp (fun hcol c hc => hv hcol c (by rw [hd, List.append_assoc]; exact List.mem_append_right _ hc))
      refine ⟨.code w :: is', by rw [hd, List.append_assoc]; exact .code hc h5, ?_⟩
      rw [width_cons, h6, visible_inl]; simp [Item.cells]
    | inr c =>
      obtain ⟨-, hg⟩ := h4 c rfl
      rw [unitText_inr] at hd
      rw [visible_inr] at hp
      have hv' : NoVariant env (unitText de ++ x) := fun hcol c hc => hv hcol c (by rw [hd, List.cons_append]; exact List.mem_cons_of_mem _ hc)
      obtain ⟨is', h5, h6⟩ := ih h1 h2 (fun y hy => hp y (by simp [hy])) hv'
      have hpc : ∀ y ∈ [c], Plain env y := fun y hy => hp y (by simp at hy; simp [hy])
      obtain ⟨is3, h7, h8, -⟩ := doc_pushes false hpc h5 (goes_append hg hgx) hv'
      refine ⟨is3, by rw [hd]; exact h7, ?_⟩
      rw [h8, h6, visible_inr, plainWidth_cons, plainWidth_cons, plainWidth_nil]; omega

theorem codes_code {cs : List Nat} {is : List Item} (h : Doc env cs is) (before : List Item) (hb : ∀ i ∈ before, i ∈ is) :
    ∀ i ∈ codes before, ∃ w k x, i = .code w ∧ Code k x w := by
  intro i hi
  simp only [codes, List.mem_filter] at hi
  cases i with
  | glyph w n => simp [Item.isGlyph] at hi
  | code w =>
    obtain ⟨k, x, hc⟩ := doc_code_mem h w (hb _ hi.1)
    exact ⟨w, k, x, rfl, hc⟩

theorem text_mem {is : List Item} {i : Item} (hi : i ∈ is) : ∀ c ∈ i.text, c ∈ text is := by
  intro c hc
  simp only [text, List.mem_flatten, List.mem_map]
  exact ⟨i.text, ⟨i, hi, rfl⟩, hc⟩

/-- What is left after cutting on the left. -/
theorem left_doc {cs : List Nat} {is : List Item} (h : Doc env cs is) {expand : Bool} {limit : Int} {el : List Nat} {before after : List Item} {g : Item}
    (hc : CutLeft env expand is limit el before after g) {e : List Nat} (he : ∀ c ∈ e, Plain env c) (hv : NoVariant env cs) :
    ∃ is', Doc env (text (codes before) ++ e ++ text after) is' ∧ width expand is' = plainWidth env e + width expand after := by
  obtain ⟨h1, h2⟩ := doc_suffix h before g after hc.split hc.glyph
  have hva : NoVariant env (text after) := by
    intro hcol c hcc
    refine hv hcol c ?_
    rw [← doc_text h, hc.split, text_append, text_cons]
    simp [hcc]
  obtain ⟨is2, h3, h4, -⟩ := doc_pushes expand he h1 h2 hva
  have hk := codes_code h before (fun i hi => by rw [hc.split]; simp [hi])
  refine ⟨codes before ++ is2, by rw [List.append_assoc]; exact doc_codes h3 _ hk, ?_⟩
  rw [width_append, h4, width_codes _ _ (by
    intro i hi
    obtain ⟨w, k, x, rfl, -⟩ := hk i hi
    rfl)]
  omega

/-- Codes that follow text start with a control character of 7 bits. -/
theorem first_code {cs : List Nat} {is : List Item} (h : Doc env cs is) : ∀ (before rest : List Item), is = before ++ rest → Goes cs →
    Goes (text (codes before)) := by
  induction h with
  | nil => intro before rest hb _; simp at hb; rw [hb.1]; simp [codes, text, Goes]
  | @code k x w tail is h1 h2 ih =>
    intro before rest hb hg
    cases before with
    | nil => simp [codes, text, Goes]
    | cons i before =>
      rw [List.cons_append] at hb
      injection hb with h3 h4
      subst h3
      intro c hc
      obtain ⟨y, r, rfl, -⟩ := code_head h1
      refine hg c ?_
      rw [show codes (.code (y :: r) :: before) = .code (y :: r) :: codes before from rfl, text_cons] at hc
      simpa [Item.text] using hc
  | @text t tail gs is h1 h2 h3 h4 h5 ih =>
    intro before rest hb _
    have hglyphs : ∀ g1 : List (List Nat × Int), codes (g1.map glyphItem) = [] := by
      intro g1
      rw [codes, List.filter_eq_nil_iff]
      intro i hi
      simp only [List.mem_map] at hi
      obtain ⟨g, -, rfl⟩ := hi
      simp [glyphItem, Item.isGlyph]
    rcases List.append_eq_append_iff.1 hb with ⟨a', h6, h7⟩ | ⟨b', h6, h7⟩
    · have := ih a' rest h7 (goes_of_stop h3)
      rw [h6, show codes (gs.map (fun g : List Nat × Int => Item.glyph g.1 g.2) ++ a') = codes (gs.map glyphItem) ++ codes a' by simp [codes]; rfl,
        hglyphs, List.nil_append]
      exact this
    · obtain ⟨g1, g2, h8, h9, -⟩ := map_glyph_append (gs := gs) h6
      rw [h9, hglyphs]
      simp [text, Goes]

theorem goes_plain {e : List Nat} (he : ∀ c ∈ e, Plain env c) : Goes e := fun _ hc => .inl (he _ (List.mem_of_mem_head? hc)).printable

theorem path_doc (hz : env.variant 0 = false) {cs : List Nat} {is : List Item} (h : Doc env cs is) (ht : ∀ c ∈ cs, IsText c)
    (hl : (flat cs).length ≤ bufferLimit) (hv : NoVariant env cs) (hpl : ∀ c, Letter c ∨ c = 58 → Plain env c) {d r : List Nat} {n : Int}
    (hs : PathSplit env is d r n) {ir : List Item} (hr : Doc env r ir) {limit : Int} {el : List Nat} {before after : List Item} {g : Item}
    (hc : CutLeft env false ir limit el before after g) {e : List Nat} (he : ∀ c ∈ e, Plain env c) :
    ∃ is', Doc env (d ++ (text (codes before) ++ e ++ text after)) is' ∧ width false is' = n + (plainWidth env e + width false after) := by
  obtain ⟨hcs, -⟩ := path_split hz h ht hl hv hpl hs
  have hvr : NoVariant env r := fun hcol c hcc => hv hcol c (by rw [hcs]; simp [hcc])
  obtain ⟨ix, h1, h2⟩ := left_doc hr hc he hvr
  rcases hs with ⟨c, ⟨us, z, vs, h3, h4, h5, rfl, rfl⟩, rfl⟩ | ⟨h3, rfl, rfl, rfl⟩
  · have hpv : ∀ x ∈ visible us, Plain env x := by
      intro x hx
      rw [h4] at hx
      simp at hx
      rcases hx with rfl | rfl
      · exact hpl _ (.inl h5)
      · exact hpl _ (.inr rfl)
    have hpw : plainWidth env (visible us) = env.wc c + env.wc 58 := by rw [h4]; simp [plainWidth]
    obtain ⟨⟨ir0, h6, h7, -⟩, id, h8, h9, -⟩ := doc_front us h h3 hpv hv
    obtain ⟨-, -, -, -, hgo⟩ := doc_tail h6 (u := .inr z) (us := vs) h7
    have hgr : Goes (unitText (.inr z :: vs)) := by
      intro c hcc
      rw [unitText_inr] at hcc
      simp at hcc; subst hcc
      exact .inl (hgo _ rfl).1
    have hgx : Goes (text (codes before) ++ e ++ text after) := by
      refine goes_append (goes_append (first_code hr before _ hc.split hgr) (goes_plain he)) ?_
      exact (doc_suffix hr before g after hc.split hc.glyph).2
    obtain ⟨is', h10, h11⟩ := doc_join h1 hgx us h8 h9 hpv (by
      intro hcol x hx
      rcases List.mem_append.1 hx with hx | hx
      · exact hv hcol x (by rw [hcs]; simp [hx])
      · rcases List.mem_append.1 hx with hx | hx
        · rcases List.mem_append.1 hx with hx | hx
          · refine hvr hcol x ?_
            rw [← doc_text hr, hc.split, text_append]
            refine List.mem_append_left _ ?_
            simp only [text, List.mem_flatten, List.mem_map, codes, List.mem_filter] at hx ⊢
            obtain ⟨l, ⟨i, ⟨hi, -⟩, hil⟩, hxl⟩ := hx
            exact ⟨l, ⟨i, hi, hil⟩, hxl⟩
          · have := (he x hx).variant; simpa using this
        · refine hvr hcol x ?_
          rw [← doc_text hr, hc.split, text_append, text_cons]
          simp [hx])
    exact ⟨is', h10, by rw [h11, hpw, h2]⟩
  · exact ⟨ix, h1, by rw [h2]; omega⟩

end Clink.Ellipsify
