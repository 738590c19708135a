import Verif.Proof.Color

/-! Which descriptions are valid, and the state after them. -/

namespace Clink.Color

open Spec

theorem snoc_cases {α : Type} (l : List α) : l = [] ∨ ∃ a x, l = a ++ [x] := by
  rcases List.eq_nil_or_concat l with h | ⟨a, x, h⟩
  · exact .inl h
  · exact .inr ⟨a, x, by rw [h, List.concat_eq_append]⟩

theorem order_snoc (ks : List Kind) (k : Kind) :
    (∀ a c b, ks ++ [k] = a ++ c :: b → c.isColour = true → Kind.default ∉ b) ↔
      (∀ a c b, ks = a ++ c :: b → c.isColour = true → Kind.default ∉ b) ∧ (k = .default → ks.countP Kind.isColour = 0) := by
  constructor
  · intro h
    refine ⟨fun a c b e hc => ?_, fun e => ?_⟩
    · have := h a c (b ++ [k]) (by rw [e]; simp) hc
      simp only [List.mem_append, not_or] at this
      exact this.1
    · subst e
      rw [List.countP_eq_zero]
      intro c hc hcol
      obtain ⟨a, b, rfl⟩ := List.append_of_mem hc
      exact h a c (b ++ [.default]) (by simp) hcol (by simp)
  · rintro ⟨h1, h2⟩ a c b e hc hd
    rcases snoc_cases b with rfl | ⟨b', x, rfl⟩
    · simp at hd
    · have e' : ks ++ [k] = (a ++ c :: b') ++ [x] := by rw [e]; simp
      obtain ⟨rfl, e2⟩ := List.append_inj' e' rfl
      cases e2
      rcases List.mem_append.1 hd with hd | hd
      · exact h1 a c b' rfl hc hd
      · have : k = .default := (List.mem_singleton.1 hd).symm
        have := h2 this
        rw [List.countP_eq_zero] at this
        exact this c (by simp) hc

/-- What is allowed on a side, apart from the order. -/
theorem side_snoc (ks : List Kind) (k : Kind) :
    Side (ks ++ [k]) ↔ Side ks ∧
      match k with
      | .name _ => ks.countP Kind.isColour = 0
      | .rgb _ _ _ => ks.countP Kind.isColour = 0 ∧ .bright ∉ ks
      | .default => ks.countP Kind.isColour = 0 ∧ .default ∉ ks
      | .bright => .bright ∉ ks ∧ ks.countP Kind.isRgb = 0
      | _ => True := by
  have hc : ∀ x : Kind, ks.count x = 0 ↔ x ∉ ks := fun x => List.count_eq_zero
  constructor
  · rintro ⟨h1, h2, h3, h4, h5⟩
    rw [order_snoc] at h4
    rw [List.countP_append] at h1
    rw [List.count_append] at h2 h3
    have h5' : .bright ∈ ks → ks.countP Kind.isRgb = 0 := by
      intro h
      have := h5 (List.mem_append_left _ h)
      rw [List.countP_append] at this
      omega
    refine ⟨⟨by omega, by omega, by omega, h4.1, h5'⟩, ?_⟩
    cases k with
    | name n =>
      rw [show List.countP Kind.isColour [Kind.name n] = 1 from rfl] at h1
      simp only
      omega
    | rgb r g b =>
      rw [show List.countP Kind.isColour [Kind.rgb r g b] = 1 from rfl] at h1
      refine ⟨by omega, fun h => ?_⟩
      have := h5 (List.mem_append_left _ h)
      simp [Kind.isRgb] at this
    | default =>
      refine ⟨h4.2 rfl, ?_⟩
      simp at h2
      exact (hc _).1 (by omega)
    | bright =>
      simp at h3
      refine ⟨(hc _).1 (by omega), ?_⟩
      have := h5 (by simp)
      rw [List.countP_append] at this
      omega
    | _ => trivial
  · rintro ⟨⟨h1, h2, h3, h4, h5⟩, h⟩
    cases k with
    | name n =>
      simp only at h
      refine ⟨?_, ?_, ?_, (order_snoc _ _).2 ⟨h4, by simp⟩, ?_⟩
      · rw [List.countP_append, h]; simp [Kind.isColour]
      · rw [List.count_append]; simpa using h2
      · rw [List.count_append]; simpa using h3
      · intro hb
        simp at hb
        rw [List.countP_append, h5 hb]
        rfl
    | rgb r g b =>
      simp only at h
      refine ⟨?_, ?_, ?_, (order_snoc _ _).2 ⟨h4, by simp⟩, ?_⟩
      · rw [List.countP_append, h.1]; simp [Kind.isColour]
      · rw [List.count_append]; simpa using h2
      · rw [List.count_append]; simpa using h3
      · intro hb
        simp at hb
        exact absurd hb h.2
    | default =>
      simp only at h
      have := (hc .default).2 h.2
      refine ⟨?_, ?_, ?_, (order_snoc _ _).2 ⟨h4, fun _ => h.1⟩, ?_⟩
      · rw [List.countP_append, h.1]; simp [Kind.isColour]
      · rw [List.count_append, this]; simp
      · rw [List.count_append]; simpa using h3
      · intro hb
        simp at hb
        rw [List.countP_append, h5 hb]
        rfl
    | bright =>
      simp only at h
      have := (hc .bright).2 h.1
      refine ⟨?_, ?_, ?_, (order_snoc _ _).2 ⟨h4, by simp⟩, ?_⟩
      · rw [List.countP_append]; simpa [Kind.isColour] using h1
      · rw [List.count_append]; simpa using h2
      · rw [List.count_append, this]; simp
      · intro hb
        rw [List.countP_append, h.2]
        rfl
    | _ =>
      refine ⟨?_, ?_, ?_, (order_snoc _ _).2 ⟨h4, by simp⟩, ?_⟩
      · rw [List.countP_append]; simpa [Kind.isColour] using h1
      · rw [List.count_append]; simpa using h2
      · rw [List.count_append]; simpa using h3
      · intro hb
        simp at hb
        rw [List.countP_append, h5 hb]
        rfl

/-- What is allowed after the words of a side: `s` is the state before them. -/
structure Cond (s : St) (ks : List Kind) : Prop where
  side : Side ks
  bold : ks.countP Kind.isBold ≤ if s.onBg then 0 else 1
  underline : ks.countP Kind.isUnderline ≤ if s.onBg then 0 else 1
  italic : ks.count .italic ≤ if s.onBg then 0 else 1
  reverse : ks.count .reverse + (if s.reverse then 1 else 0) ≤ 1

def num : Option Kind → Int
  | some (.name n) => n
  | some (.rgb r g b) => (r * 65536 + g * 256 + b : Nat)
  | _ => -1

def boldOf (d : Int) : Option Kind → Int
  | some (.bold b) => if b then 1 else 0
  | some (.underline b) => if b then 1 else 0
  | _ => d

/-- The state after the words of a side. -/
def after (s : St) (ks : List Kind) : St :=
  let c := num (ks.find? Kind.isColour)
  let h := decide (0 < ks.countP Kind.isRgb)
  { fg := if s.onBg then s.fg else c
    fgHex := if s.onBg then s.fgHex else h
    bg := if s.onBg then c else s.bg
    bgHex := if s.onBg then h else s.bgHex
    bold := boldOf s.bold (ks.find? Kind.isBold)
    underline := boldOf s.underline (ks.find? Kind.isUnderline)
    bright := if .bright ∈ ks then 1 else -1
    italic := s.italic || decide (.italic ∈ ks)
    reverse := s.reverse || decide (.reverse ∈ ks)
    onBg := s.onBg
    sawDefault := decide (.default ∈ ks) }

/-- States in which a side begins. -/
structure Fresh (s : St) : Prop where
  color : s.color = -1
  hex : s.hex = false
  bright : s.bright = -1
  saw : s.sawDefault = false
  front : s.onBg = false → s.bold = -1 ∧ s.underline = -1 ∧ s.italic = false

theorem find_none {p : Kind → Bool} {ks : List Kind} (h : ks.countP p = 0) : ks.find? p = none := by
  rw [List.find?_eq_none]
  exact List.countP_eq_zero.1 h

theorem find_snoc (p : Kind → Bool) (ks : List Kind) (k : Kind) : (ks ++ [k]).find? p = (ks.find? p).or (if p k then some k else none) := by
  rw [List.find?_append]
  cases h : p k <;> simp [h]

theorem num_nonneg {ks : List Kind} : (0 ≤ num (ks.find? Kind.isColour)) ↔ 0 < ks.countP Kind.isColour := by
  cases h : ks.find? Kind.isColour with
  | none =>
    have := List.find?_eq_none.1 h
    rw [List.countP_eq_zero.2 this]
    simp [num]
  | some k =>
    have hk := List.find?_some h
    have hm := List.mem_of_find?_eq_some h
    have : 0 < ks.countP Kind.isColour := List.countP_pos_iff.2 ⟨k, hm, hk⟩
    refine ⟨fun _ => this, fun _ => ?_⟩
    cases k with
    | name n => show (0 : Int) ≤ (n : Int); omega
    | rgb r g b => show (0 : Int) ≤ ((r * 65536 + g * 256 + b : Nat) : Int); omega
    | _ => simp [Kind.isColour] at hk

theorem boldOf_nonneg {ks : List Kind} {d : Int} (hd : d = -1) : (0 ≤ boldOf d (ks.find? Kind.isBold)) ↔ 0 < ks.countP Kind.isBold := by
  cases h : ks.find? Kind.isBold with
  | none =>
    have := List.find?_eq_none.1 h
    rw [List.countP_eq_zero.2 this]
    simp [boldOf, hd]
  | some k =>
    have hk := List.find?_some h
    have hm := List.mem_of_find?_eq_some h
    have : 0 < ks.countP Kind.isBold := List.countP_pos_iff.2 ⟨k, hm, hk⟩
    refine ⟨fun _ => this, fun _ => ?_⟩
    cases k with
    | bold b => cases b <;> simp [boldOf]
    | _ => simp [Kind.isBold] at hk

theorem underlineOf_nonneg {ks : List Kind} {d : Int} (hd : d = -1) : (0 ≤ boldOf d (ks.find? Kind.isUnderline)) ↔ 0 < ks.countP Kind.isUnderline := by
  cases h : ks.find? Kind.isUnderline with
  | none =>
    have := List.find?_eq_none.1 h
    rw [List.countP_eq_zero.2 this]
    simp [boldOf, hd]
  | some k =>
    have hk := List.find?_some h
    have hm := List.mem_of_find?_eq_some h
    have : 0 < ks.countP Kind.isUnderline := List.countP_pos_iff.2 ⟨k, hm, hk⟩
    refine ⟨fun _ => this, fun _ => ?_⟩
    cases k with
    | underline b => cases b <;> simp [boldOf]
    | _ => simp [Kind.isUnderline] at hk

theorem after_color (s : St) (ks : List Kind) : (after s ks).color = num (ks.find? Kind.isColour) := by
  unfold St.color after
  cases s.onBg <;> rfl

theorem after_hex (s : St) (ks : List Kind) : (after s ks).hex = decide (0 < ks.countP Kind.isRgb) := by
  unfold St.hex after
  cases s.onBg <;> rfl

theorem rgb_le (ks : List Kind) : ks.countP Kind.isRgb ≤ ks.countP Kind.isColour :=
  List.countP_mono_left fun k _ h => by cases k <;> simp_all [Kind.isRgb, Kind.isColour]

/-- One more word. -/
theorem after_step {s : St} (hs : Fresh s) {ks : List Kind} (hc : Cond s ks) (k : Kind) (hk : k ≠ .on) :
    (stepK (after s ks) k = some (after s (ks ++ [k])) ∧ Cond s (ks ++ [k])) ∨ (stepK (after s ks) k = none ∧ ¬ Cond s (ks ++ [k])) := by
  obtain ⟨c1, c2, c3, c4, c5⟩ := hc
  have cnt : ∀ x : Kind, ks.count x = 0 ↔ x ∉ ks := fun x => List.count_eq_zero
  have other : Side (ks ++ [k]) → k.isBold = false → k.isUnderline = false → k ≠ .italic → k ≠ .reverse → Cond s (ks ++ [k]) := by
    intro h1 h2 h3 h4 h5
    refine ⟨h1, ?_, ?_, ?_, ?_⟩
    · rw [List.countP_append]; simpa [h2] using c2
    · rw [List.countP_append]; simpa [h3] using c3
    · rw [List.count_append]; simpa [List.count_cons, h4] using c4
    · rw [List.count_append]; simpa [List.count_cons, h5] using c5
  have hq : 0 ≤ (after s ks).color ↔ 0 < ks.countP Kind.isColour := by
    rw [after_color]
    exact num_nonneg
  cases k with
  | on => exact absurd rfl hk
  | default =>
    simp only [stepK]
    by_cases h1 : 0 < ks.countP Kind.isColour
    · rw [if_pos (hq.2 h1)]
      refine .inr ⟨rfl, fun h => ?_⟩
      have := ((side_snoc _ _).1 h.side).2.1
      omega
    · rw [if_neg fun h => h1 (hq.1 h)]
      have h1' : ks.countP Kind.isColour = 0 := by omega
      by_cases h2 : .default ∈ ks
      · rw [if_pos (by simp [after, h2])]
        exact .inr ⟨rfl, fun h => ((side_snoc _ _).1 h.side).2.2 h2⟩
      · rw [if_neg (by simp [after, h2])]
        refine .inl ⟨?_, other ((side_snoc _ _).2 ⟨c1, h1', h2⟩) rfl rfl (by simp) (by simp)⟩
        have h3 : ks.countP Kind.isRgb = 0 := by have := rgb_le ks; omega
        unfold after
        simp only [find_snoc, Kind.isColour, Kind.isBold, Kind.isUnderline, List.countP_append, find_none h1', h3]
        cases s.onBg <;> simp [num, St.setColor, St.setHex, Kind.isRgb]
  | bright =>
    simp only [stepK]
    rw [after_hex]
    by_cases h1 : 0 < ks.countP Kind.isRgb
    · rw [if_pos (by simpa using h1)]
      refine .inr ⟨rfl, fun h => ?_⟩
      have := ((side_snoc _ _).1 h.side).2.2
      omega
    · rw [if_neg (by simpa using h1)]
      have h1' : ks.countP Kind.isRgb = 0 := by omega
      by_cases h2 : .bright ∈ ks
      · rw [if_pos (by simp [after, h2])]
        exact .inr ⟨rfl, fun h => ((side_snoc _ _).1 h.side).2.1 h2⟩
      · rw [if_neg (by simp [after, h2])]
        refine .inl ⟨?_, other ((side_snoc _ _).2 ⟨c1, h2, h1'⟩) rfl rfl (by simp) (by simp)⟩
        unfold after
        simp only [find_snoc, Kind.isColour, Kind.isBold, Kind.isUnderline, List.countP_append]
        simp [Kind.isRgb]
  | name n =>
    simp only [stepK]
    by_cases h1 : 0 < ks.countP Kind.isColour
    · rw [if_pos (hq.2 h1)]
      refine .inr ⟨rfl, fun h => ?_⟩
      have := ((side_snoc _ _).1 h.side).2
      simp only at this
      omega
    · rw [if_neg fun h => h1 (hq.1 h)]
      have h1' : ks.countP Kind.isColour = 0 := by omega
      refine .inl ⟨?_, other ((side_snoc _ _).2 ⟨c1, h1'⟩) rfl rfl (by simp) (by simp)⟩
      have h3 : ks.countP Kind.isRgb = 0 := by have := rgb_le ks; omega
      unfold after
      simp only [find_snoc, Kind.isColour, Kind.isBold, Kind.isUnderline, List.countP_append, find_none h1', h3]
      cases h : s.onBg <;> simp [num, St.setColor, Kind.isRgb]
  | rgb r g b =>
    simp only [stepK]
    by_cases h1 : 0 < ks.countP Kind.isColour
    · rw [if_pos (hq.2 h1)]
      refine .inr ⟨rfl, fun h => ?_⟩
      have := ((side_snoc _ _).1 h.side).2.1
      omega
    · rw [if_neg fun h => h1 (hq.1 h)]
      have h1' : ks.countP Kind.isColour = 0 := by omega
      by_cases h2 : .bright ∈ ks
      · rw [if_pos (by simp [after, h2])]
        exact .inr ⟨rfl, fun h => ((side_snoc _ _).1 h.side).2.2 h2⟩
      · rw [if_neg (by simp [after, h2])]
        refine .inl ⟨?_, other ((side_snoc _ _).2 ⟨c1, h1', h2⟩) rfl rfl (by simp) (by simp)⟩
        have h3 : ks.countP Kind.isRgb = 0 := by have := rgb_le ks; omega
        unfold after
        simp only [find_snoc, Kind.isColour, Kind.isBold, Kind.isUnderline, List.countP_append, find_none h1', h3]
        cases h : s.onBg <;> simp [num, St.setColor, St.setHex, Kind.isRgb]
  | bold b =>
    simp only [stepK]
    have hside : Side (ks ++ [.bold b]) := (side_snoc _ _).2 ⟨c1, trivial⟩
    cases ho : s.onBg with
    | true =>
      rw [if_pos (by simp [after, ho])]
      refine .inr ⟨rfl, fun h => ?_⟩
      have := h.bold
      rw [List.countP_append, ho] at this
      simp [Kind.isBold] at this
    | false =>
      rw [if_neg (by simp [after, ho])]
      have hd := (hs.front ho).1
      by_cases h1 : 0 < ks.countP Kind.isBold
      · rw [if_pos (show 0 ≤ (after s ks).bold from (boldOf_nonneg hd).2 h1)]
        refine .inr ⟨rfl, fun h => ?_⟩
        have := h.bold
        rw [List.countP_append, ho, show List.countP Kind.isBold [Kind.bold b] = 1 from rfl] at this
        simp only [Bool.false_eq_true, if_false] at this
        omega
      · rw [if_neg (show ¬ 0 ≤ (after s ks).bold from fun h => h1 ((boldOf_nonneg hd).1 h))]
        have h1' : ks.countP Kind.isBold = 0 := by omega
        refine .inl ⟨?_, hside, ?_, ?_, ?_, ?_⟩
        · unfold after
          simp only [find_snoc, Kind.isColour, Kind.isBold, Kind.isUnderline, List.countP_append, find_none h1']
          simp [boldOf, Kind.isRgb]
        · rw [List.countP_append, h1', ho]; simp [Kind.isBold]
        · rw [List.countP_append]; simpa [Kind.isUnderline] using c3
        · rw [List.count_append]; simpa using c4
        · rw [List.count_append]; simpa using c5
  | underline b =>
    simp only [stepK]
    have hside : Side (ks ++ [.underline b]) := (side_snoc _ _).2 ⟨c1, trivial⟩
    cases ho : s.onBg with
    | true =>
      rw [if_pos (by simp [after, ho])]
      refine .inr ⟨rfl, fun h => ?_⟩
      have := h.underline
      rw [List.countP_append, ho] at this
      simp [Kind.isUnderline] at this
    | false =>
      rw [if_neg (by simp [after, ho])]
      have hd := (hs.front ho).2.1
      by_cases h1 : 0 < ks.countP Kind.isUnderline
      · rw [if_pos (show 0 ≤ (after s ks).underline from (underlineOf_nonneg hd).2 h1)]
        refine .inr ⟨rfl, fun h => ?_⟩
        have := h.underline
        rw [List.countP_append, ho, show List.countP Kind.isUnderline [Kind.underline b] = 1 from rfl] at this
        simp only [Bool.false_eq_true, if_false] at this
        omega
      · rw [if_neg (show ¬ 0 ≤ (after s ks).underline from fun h => h1 ((underlineOf_nonneg hd).1 h))]
        have h1' : ks.countP Kind.isUnderline = 0 := by omega
        refine .inl ⟨?_, hside, ?_, ?_, ?_, ?_⟩
        · unfold after
          simp only [find_snoc, Kind.isColour, Kind.isBold, Kind.isUnderline, List.countP_append, find_none h1']
          simp [boldOf, Kind.isRgb]
        · rw [List.countP_append]; simpa [Kind.isBold] using c2
        · rw [List.countP_append, h1', ho]; simp [Kind.isUnderline]
        · rw [List.count_append]; simpa using c4
        · rw [List.count_append]; simpa using c5
  | italic =>
    simp only [stepK]
    have hside : Side (ks ++ [.italic]) := (side_snoc _ _).2 ⟨c1, trivial⟩
    cases ho : s.onBg with
    | true =>
      rw [if_pos (by simp [after, ho])]
      refine .inr ⟨rfl, fun h => ?_⟩
      have := h.italic
      rw [List.count_append, ho] at this
      simp at this
    | false =>
      rw [if_neg (by simp [after, ho])]
      have hd := (hs.front ho).2.2
      by_cases h1 : .italic ∈ ks
      · rw [if_pos (by simp [after, h1])]
        refine .inr ⟨rfl, fun h => ?_⟩
        have := h.italic
        have hp := List.count_pos_iff.2 h1
        rw [List.count_append, ho, show List.count Kind.italic [Kind.italic] = 1 from rfl] at this
        simp only [Bool.false_eq_true, if_false] at this
        omega
      · rw [if_neg (by simp [after, h1, hd])]
        have h1' := (cnt .italic).2 h1
        refine .inl ⟨?_, hside, ?_, ?_, ?_, ?_⟩
        · unfold after
          simp only [find_snoc, Kind.isColour, Kind.isBold, Kind.isUnderline, List.countP_append]
          simp [boldOf, Kind.isRgb]
        · rw [List.countP_append]; simpa [Kind.isBold] using c2
        · rw [List.countP_append]; simpa [Kind.isUnderline] using c3
        · rw [List.count_append, h1', ho]; simp
        · rw [List.count_append]; simpa using c5
  | reverse =>
    simp only [stepK]
    have hside : Side (ks ++ [.reverse]) := (side_snoc _ _).2 ⟨c1, trivial⟩
    by_cases h1 : s.reverse = true ∨ .reverse ∈ ks
    · rw [if_pos (by rcases h1 with h1 | h1 <;> simp [after, h1])]
      refine .inr ⟨rfl, fun h => ?_⟩
      have := h.reverse
      rw [List.count_append, show List.count Kind.reverse [Kind.reverse] = 1 from rfl] at this
      rcases h1 with h1 | h1
      · simp [h1] at this
      · have hp := List.count_pos_iff.2 h1
        omega
    · simp only [not_or, Bool.not_eq_true] at h1
      rw [if_neg (by simp [after, h1])]
      have h1' := (cnt .reverse).2 h1.2
      refine .inl ⟨?_, hside, ?_, ?_, ?_, ?_⟩
      · unfold after
        simp only [find_snoc, Kind.isColour, Kind.isBold, Kind.isUnderline, List.countP_append]
        simp [boldOf, Kind.isRgb]
      · rw [List.countP_append]; simpa [Kind.isBold] using c2
      · rw [List.countP_append]; simpa [Kind.isUnderline] using c3
      · rw [List.count_append]; simpa using c4
      · rw [List.count_append, h1', h1.1]; simp

theorem cond_prefix {s : St} {ks : List Kind} {k : Kind} (h : Cond s (ks ++ [k])) : Cond s ks := by
  obtain ⟨h1, h2, h3, h4, h5⟩ := h
  rw [List.countP_append] at h2 h3
  rw [List.count_append] at h4 h5
  exact ⟨((side_snoc _ _).1 h1).1, by omega, by omega, by omega, by omega⟩

theorem after_nil {s : St} (hs : Fresh s) : after s [] = s := by
  have h1 := hs.color
  have h2 := hs.hex
  have h3 := hs.bright
  have h4 := hs.saw
  unfold St.color at h1
  unfold St.hex at h2
  unfold after
  obtain ⟨fg, bg, fgHex, bgHex, bold, bright, underline, italic, reverse, onBg, saw⟩ := s
  cases onBg <;> simp_all [num, boldOf]

/-- The words of one side. -/
theorem after_all {s : St} (hs : Fresh s) (ks : List Kind) (hon : .on ∉ ks) :
    (stepsK s ks = some (after s ks) ∧ Cond s ks) ∨ (stepsK s ks = none ∧ ¬ Cond s ks) := by
  obtain ⟨n, hn⟩ : ∃ n, n = ks.length := ⟨_, rfl⟩
  induction n generalizing ks with
  | zero =>
    have : ks = [] := List.length_eq_zero_iff.1 hn.symm
    subst this
    refine .inl ⟨by rw [after_nil hs]; rfl, ?_⟩
    refine ⟨⟨by simp, by simp, by simp, by simp, by simp⟩, by simp, by simp, by simp, ?_⟩
    simp only [List.count_nil, Nat.zero_add]
    split <;> omega
  | succ n ih =>
    rcases snoc_cases ks with rfl | ⟨a, k, rfl⟩
    · simp at hn
    · simp only [List.mem_append, List.mem_singleton, not_or] at hon
      simp only [List.length_append, List.length_cons, List.length_nil] at hn
      rw [stepsK_append]
      rcases ih a hon.1 (by omega) with ⟨h1, h2⟩ | ⟨h1, h2⟩
      · rw [h1, Option.bind_some]
        have : stepsK (after s a) [k] = stepK (after s a) k := by
          rw [stepsK]
          cases stepK (after s a) k <;> rfl
        rw [this]
        exact after_step hs h2 k (Ne.symm hon.2)
      · rw [h1]
        exact .inr ⟨rfl, fun h => h2 (cond_prefix h)⟩

theorem fresh_start : Fresh {} := ⟨rfl, rfl, rfl, rfl, fun _ => ⟨rfl, rfl, rfl⟩⟩

/-- The state after `on`. -/
def turned (s : St) : St :=
  { s with fg := if !s.hex && decide (0 < s.bright) then s.fg + 8 else s.fg, onBg := true, bright := -1, sawDefault := false }

theorem cond_front {ks : List Kind} : Cond {} ks ↔ Front ks ∧ ks.count .reverse ≤ 1 :=
  ⟨fun h => ⟨⟨h.side, h.bold, h.underline, h.italic⟩, h.reverse⟩, fun h => ⟨h.1.toSide, h.1.bold, h.1.underline, h.1.italic, h.2⟩⟩

theorem cond_back {s : St} (hs : s.onBg = true) {ks : List Kind} : Cond s ks ↔ Back ks ∧ ks.count .reverse + (if s.reverse then 1 else 0) ≤ 1 := by
  constructor
  · rintro ⟨h1, h2, h3, h4, h5⟩
    rw [hs] at h2 h3 h4
    simp only [if_true, Nat.le_zero] at h2 h3 h4
    exact ⟨⟨h1, h2, h3, List.count_eq_zero.1 h4⟩, h5⟩
  · rintro ⟨⟨h1, h2, h3, h4⟩, h5⟩
    refine ⟨h1, ?_, ?_, ?_, h5⟩
    · rw [h2]; exact Nat.zero_le _
    · rw [h3]; exact Nat.zero_le _
    · rw [List.count_eq_zero.2 h4]; exact Nat.zero_le _

theorem turned_fresh (s : St) (h : s.bg = -1) (h' : s.bgHex = false) : Fresh (turned s) :=
  ⟨h, h', rfl, rfl, fun h => by cases h⟩

theorem reverse_count {ks : List Kind} (h : ks.count .reverse ≤ 1) : ks.count .reverse = if (.reverse ∈ ks) then 1 else 0 := by
  split
  · have := List.count_pos_iff.2 (by assumption)
    omega
  · exact List.count_eq_zero.2 (by assumption)

/-- The state after the whole description. -/
def final (front back : List Kind) (on : Bool) : St := if on then after (turned (after {} front)) back else after {} front

theorem valid_final {front back : List Kind} {on : Bool} (h : Valid front back on) :
    stepsK {} (sentence front back on) = some (final front back on) := by
  cases h with
  | front h hon hr =>
    rcases after_all fresh_start front hon with ⟨h1, -⟩ | ⟨-, h1⟩
    · show stepsK {} (front ++ []) = _
      rw [List.append_nil, h1]
      rfl
    · exact absurd (cond_front.2 ⟨h, hr⟩) h1
  | both h h' hon hon' hr =>
    rcases after_all fresh_start front hon with ⟨h1, -⟩ | ⟨-, h1⟩
    · show stepsK {} (front ++ .on :: back) = _
      rw [stepsK_append, h1, Option.bind_some, stepsK]
      have e : stepK (after {} front) .on = some (turned (after {} front)) := rfl
      rw [e, Option.bind_some]
      rcases after_all (turned_fresh (after {} front) rfl rfl) back hon' with ⟨h2, -⟩ | ⟨-, h2⟩
      · rw [h2]
        rfl
      · refine absurd ((cond_back rfl).2 ⟨h', ?_⟩) h2
        have : (turned (after {} front)).reverse = decide (.reverse ∈ front) := by simp [turned, after]
        rw [this]
        have := reverse_count (ks := front) (by omega)
        simp only [decide_eq_true_eq]
        omega
    · exact absurd (cond_front.2 ⟨h, by omega⟩) h1

theorem valid_of_some {ks : List Kind} {s : St} (h : stepsK {} ks = some s) :
    ∃ front back on, Valid front back on ∧ ks = sentence front back on := by
  by_cases hon : .on ∈ ks
  · obtain ⟨front, back, rfl, hf⟩ : ∃ a b, ks = a ++ .on :: b ∧ .on ∉ a := by
      have := List.eq_append_cons_of_mem hon
      obtain ⟨a, b, e, h⟩ := this
      exact ⟨a, b, e, h⟩
    refine ⟨front, back, true, ?_, rfl⟩
    rw [stepsK_append] at h
    obtain ⟨s1, h1, h2⟩ := Option.bind_eq_some_iff.1 h
    rcases after_all fresh_start front hf with ⟨g1, g2⟩ | ⟨g1, -⟩
    · rw [g1] at h1
      cases h1
      rw [stepsK] at h2
      have e : stepK (after {} front) .on = some (turned (after {} front)) := rfl
      rw [e, Option.bind_some] at h2
      have hb : .on ∉ back := by
        intro hb
        obtain ⟨a, b, rfl, ha⟩ := List.eq_append_cons_of_mem hb
        rw [stepsK_append] at h2
        obtain ⟨s2, h3, h4⟩ := Option.bind_eq_some_iff.1 h2
        rcases after_all (turned_fresh (after {} front) rfl rfl) a ha with ⟨k1, k2⟩ | ⟨k1, -⟩
        · rw [k1] at h3
          cases h3
          rw [stepsK] at h4
          have : stepK (after (turned (after {} front)) a) .on = none := rfl
          rw [this] at h4
          cases h4
        · rw [k1] at h3
          cases h3
      rcases after_all (turned_fresh (after {} front) rfl rfl) back hb with ⟨k1, k2⟩ | ⟨k1, -⟩
      · have c1 := cond_front.1 g2
        have c2 := (cond_back rfl).1 k2
        refine .both c1.1 c2.1 hf hb ?_
        have := c2.2
        have e : (turned (after {} front)).reverse = decide (.reverse ∈ front) := by simp [turned, after]
        rw [e] at this
        have := reverse_count (ks := front) c1.2
        simp only [decide_eq_true_eq] at *
        omega
      · rw [k1] at h2
        cases h2
    · rw [g1] at h1
      cases h1
  · refine ⟨ks, [], false, ?_, by simp [sentence]⟩
    rcases after_all fresh_start ks hon with ⟨g1, g2⟩ | ⟨g1, -⟩
    · have c1 := cond_front.1 g2
      exact .front c1.1 hon c1.2
    · rw [g1] at h
      cases h

end Clink.Color
