import Verif.Spec.WcWidth
/-
Proofs about the width of a character.
-/
namespace Clink.WcWidth
open Spec

theorem sorted_at {t : Table} (h : Sorted t) {i j : Nat} {p q : Nat × Nat} (hi : t[i]? = some p) (hj : t[j]? = some q) (hij : i < j) :
    p.2 < q.1 := by
  have h1 := List.pairwise_iff_getElem.1 h.2
  obtain ⟨hi', rfl⟩ := List.getElem?_eq_some_iff.1 hi
  obtain ⟨hj', rfl⟩ := List.getElem?_eq_some_iff.1 hj
  exact h1 i j hi' hj' hij

theorem in_iff {t : Table} {c : Nat} : In t c ↔ ∃ i : Nat, ∃ p, t[i]? = some p ∧ p.1 ≤ c ∧ c ≤ p.2 := by
  constructor
  · rintro ⟨p, hp, h⟩
    obtain ⟨i, hi⟩ := List.getElem?_of_mem hp
    exact ⟨i, p, hi, h⟩
  · rintro ⟨i, p, hi, h⟩
    exact ⟨p, List.mem_of_getElem? hi, h⟩

theorem search_eq {t : Table} (ht : Sorted t) {c : Nat} (min max : Int) (h0 : 0 ≤ min) (hm : max < t.length)
    (hin : ∀ (i : Nat) p, t[i]? = some p → p.1 ≤ c → c ≤ p.2 → min ≤ i ∧ (i : Int) ≤ max) :
    search t c min max = some (decide (In t c)) := by
  fun_induction search t c min max with
  | case1 min max h hneg => omega
  | case2 min max h hneg hn =>
    rw [List.getElem?_eq_none_iff] at hn
    omega
  | case3 min max h hneg p hp hc ih =>
    apply ih (by omega) (by omega)
    intro i q hq h1 h2
    have := hin i q hq h1 h2
    refine ⟨?_, by omega⟩
    apply Int.not_lt.1
    intro hlt
    by_cases he : i = ((min + max) / 2).toNat
    · rw [he, hp] at hq; cases hq; omega
    · have := sorted_at ht hq hp (by omega)
      have h3 := ht.1 p (List.mem_of_getElem? hp)
      omega
  | case4 min max h hneg p hp hc hc2 ih =>
    apply ih (by omega) (by omega)
    intro i q hq h1 h2
    have := hin i q hq h1 h2
    refine ⟨by omega, ?_⟩
    apply Int.not_lt.1
    intro hlt
    by_cases he : i = ((min + max) / 2).toNat
    · rw [he, hp] at hq; cases hq; omega
    · have := sorted_at ht hp hq (by omega)
      have h3 := ht.1 p (List.mem_of_getElem? hp)
      omega
  | case5 min max h hneg p hp hc hc2 =>
    have : In t c := in_iff.2 ⟨_, p, hp, by omega, by omega⟩
    simp [this]
  | case6 min max h =>
    have : ¬ In t c := by
      intro hh
      obtain ⟨i, p, hp, h1, h2⟩ := in_iff.1 hh
      have := hin i p hp h1 h2
      omega
    simp [this]

theorem bisearch_eq {t : Table} (hne : t ≠ []) (ht : Sorted t) (c : Nat) : bisearch t c = some (decide (In t c)) := by
  have hlen : 0 < t.length := List.length_pos_iff.2 hne
  have h0 : t[0]? = some t[0] := List.getElem?_eq_getElem hlen
  have h1 : t[t.length - 1]? = some t[t.length - 1] := List.getElem?_eq_getElem (by omega)
  unfold bisearch
  rw [h0, h1]
  simp only
  by_cases hout : c < t[0].1 ∨ c > t[t.length - 1].2
  · rw [if_pos hout]
    have : ¬ In t c := by
      intro hh
      obtain ⟨i, p, hp, h2, h3⟩ := in_iff.1 hh
      have hi : i < t.length := (List.getElem?_eq_some_iff.1 hp).1
      rcases hout with h | h
      · by_cases he : i = 0
        · subst he; rw [h0] at hp; cases hp; omega
        · have := sorted_at ht h0 hp (by omega)
          have := ht.1 t[0] (List.getElem_mem hlen)
          omega
      · by_cases he : i = t.length - 1
        · subst he; rw [h1] at hp; cases hp; omega
        · have := sorted_at ht hp h1 (by omega)
          have := ht.1 t[t.length - 1] (List.getElem_mem (by omega))
          omega
    simp [this]
  · rw [if_neg hout]
    apply search_eq ht _ _ (by omega) (by omega)
    intro i p hp _ _
    have hi : i < t.length := (List.getElem?_eq_some_iff.1 hp).1
    omega

/-! ### The tables -/

theorem sorted_emojis : Sorted emojis := by decide +kernel
theorem sorted_unqualified : Sorted unqualified := by decide +kernel
theorem sorted_halfwidth : Sorted halfwidth := by decide +kernel
theorem sorted_combining : Sorted combining := by decide +kernel
theorem sorted_ucs2Emoji : Sorted ucs2Emoji := by decide +kernel
theorem sorted_ambiguous : Sorted ambiguous := by decide +kernel

theorem find_emojis (c : Nat) : bisearch emojis c = some (decide (In emojis c)) := bisearch_eq (by decide) sorted_emojis c
theorem find_unqualified (c : Nat) : bisearch unqualified c = some (decide (In unqualified c)) := bisearch_eq (by decide) sorted_unqualified c
theorem find_halfwidth (c : Nat) : bisearch halfwidth c = some (decide (In halfwidth c)) := bisearch_eq (by decide) sorted_halfwidth c
theorem find_combining (c : Nat) : bisearch combining c = some (decide (In combining c)) := bisearch_eq (by decide) sorted_combining c
theorem find_ucs2Emoji (c : Nat) : bisearch ucs2Emoji c = some (decide (In ucs2Emoji c)) := bisearch_eq (by decide) sorted_ucs2Emoji c
theorem find_ambiguous (c : Nat) : bisearch ambiguous c = some (decide (In ambiguous c)) := bisearch_eq (by decide) sorted_ambiguous c

/-- Tables that have nothing in common. -/
def apart (a b : Table) : Bool := a.all fun p => b.all fun q => p.2 < q.1 || q.2 < p.1

theorem apart_in {a b : Table} (h : apart a b = true) {c : Nat} (ha : In a c) (hb : In b c) : False := by
  obtain ⟨p, hp, h1, h2⟩ := ha
  obtain ⟨q, hq, h3, h4⟩ := hb
  have := List.all_eq_true.1 (List.all_eq_true.1 h p hp) q hq
  simp at this
  omega

theorem in_ge {t : Table} {n : Nat} (h : (t.all fun p => n ≤ p.1) = true) {c : Nat} (hc : In t c) : n ≤ c := by
  obtain ⟨p, hp, h1, h2⟩ := hc
  have := List.all_eq_true.1 h p hp
  simp at this
  omega

theorem combining_ge {c : Nat} (h : In combining c) : 0x300 ≤ c := in_ge (by decide +kernel) h
theorem emojis_ge {c : Nat} (h : In emojis c) : 0x1100 ≤ c := in_ge (by decide +kernel) h
theorem unqualified_ge {c : Nat} (h : In unqualified c) : 0xa0 ≤ c := in_ge (by decide +kernel) h
theorem ambiguous_ge {c : Nat} (h : In ambiguous c) : 0xa0 ≤ c := in_ge (by decide +kernel) h
theorem ucs2Emoji_ge {c : Nat} (h : In ucs2Emoji c) : 0x1100 ≤ c := in_ge (by decide +kernel) h
theorem wide_ge {c : Nat} (h : In wide c) : 0x1100 ≤ c := in_ge (by decide +kernel) h
theorem wideLow_ge {c : Nat} (h : In wideLow c) : 0x1100 ≤ c := in_ge (by decide +kernel) h

theorem in_cons (a b : Nat) (t : Table) (c : Nat) : In ((a, b) :: t) c ↔ (a ≤ c ∧ c ≤ b) ∨ In t c := by simp [In]
theorem in_nil (c : Nat) : In [] c ↔ False := by simp [In]

theorem halfwidth_iff (c : Nat) : In halfwidth c ↔ (0x303f ≤ c ∧ c ≤ 0x303f) ∨ (0x3248 ≤ c ∧ c ≤ 0x324f) ∨ (0x4dc0 ≤ c ∧ c ≤ 0x4dff) := by
  simp only [halfwidth, in_cons, in_nil, or_false]

theorem wideLow_iff (c : Nat) : In wideLow c ↔ (0x1100 ≤ c ∧ c ≤ 0x115f) ∨ (0x2329 ≤ c ∧ c ≤ 0x232a) ∨ ((0x2e80 ≤ c ∧ c ≤ 0xa4cf) ∧ ¬ In halfwidth c) ∨
    (0xac00 ≤ c ∧ c ≤ 0xd7a3) ∨ (0xf900 ≤ c ∧ c ≤ 0xfaff) ∨ (0xfe10 ≤ c ∧ c ≤ 0xfe19) ∨ (0xfe30 ≤ c ∧ c ≤ 0xfe6f) ∨ (0xff00 ≤ c ∧ c ≤ 0xff60) ∨
    (0xffe0 ≤ c ∧ c ≤ 0xffe6) := by
  simp only [wideLow, in_cons, in_nil, or_false, halfwidth_iff]
  omega

theorem wide_iff (c : Nat) : In wide c ↔ In wideLow c ∨ (0x20000 ≤ c ∧ c ≤ 0x2fffd) ∨ (0x30000 ≤ c ∧ c ≤ 0x3fffd) := by
  have : In wide c ↔ In wideLow c ∨ In [(0x20000, 0x2fffd), (0x30000, 0x3fffd)] c := by
    simp only [In, wide, List.mem_append]
    constructor
    · rintro ⟨p, h | h, h2⟩
      · exact .inl ⟨p, h, h2⟩
      · exact .inr ⟨p, h, h2⟩
    · rintro (⟨p, h, h2⟩ | ⟨p, h, h2⟩)
      · exact ⟨p, .inl h, h2⟩
      · exact ⟨p, .inr h, h2⟩
  rw [this]
  simp only [in_cons, in_nil, or_false]

/-! ### The widths -/

theorem cjk_eq (c : Nat) : cjk c = some (if In halfwidth c then 1 else 2) := by
  rw [cjk, find_halfwidth]
  by_cases h : In halfwidth c <;> simp [h]

theorem afterEmoji_eq (cfg : Cfg) (c : Nat) : afterEmoji cfg c = some (if In combining c then cfg.mark else if In wide c then 2 else 1) := by
  unfold afterEmoji
  rw [find_combining]
  by_cases h4 : In combining c
  · simp [h4]
  simp only [h4, decide_false, Bool.false_eq_true, if_false, Option.bind_eq_bind, Option.bind_some, Option.pure_def]
  have hw := wide_iff c
  have hwl := wideLow_iff c
  have hh := halfwidth_iff c
  rw [cjk_eq]
  by_cases h5 : c < 0x1100
  · rw [if_pos h5, if_neg (fun h => by have := wide_ge h; omega)]
  rw [if_neg h5]
  by_cases h6 : c ≤ 0x115f
  · rw [if_pos h6, if_pos (hw.2 (.inl (hwl.2 (by omega))))]
  rw [if_neg h6]
  by_cases h7 : c = 0x2329 ∨ c = 0x232a
  · rw [if_pos h7, if_pos (hw.2 (.inl (hwl.2 (by omega))))]
  rw [if_neg h7]
  by_cases h8 : c ≥ 0x2e80 ∧ c ≤ 0xa4cf
  · rw [if_pos h8]
    by_cases h9 : In halfwidth c
    · have h9' := hh.1 h9
      rw [if_pos h9, if_neg (fun h => by rw [hw, hwl, hh] at h; omega)]
    · rw [if_neg h9, if_pos (hw.2 (.inl (hwl.2 (.inr (.inr (.inl ⟨h8, h9⟩))))))]
  rw [if_neg h8]
  by_cases h10 : c ≥ 0xac00 ∧ c ≤ 0xd7a3
  · rw [if_pos h10, if_neg (fun h => by rw [hh] at h; omega), if_pos (hw.2 (.inl (hwl.2 (by omega))))]
  rw [if_neg h10]
  have hiff : In wide c ↔ (c ≥ 0xf900 ∧ c ≤ 0xfaff) ∨ (c ≥ 0xfe10 ∧ c ≤ 0xfe19) ∨ (c ≥ 0xfe30 ∧ c ≤ 0xfe6f) ∨ (c ≥ 0xff00 ∧ c ≤ 0xff60) ∨
        (c ≥ 0xffe0 ∧ c ≤ 0xffe6) ∨ (c ≥ 0x20000 ∧ c ≤ 0x2fffd) ∨ (c ≥ 0x30000 ∧ c ≤ 0x3fffd) := by
    rw [hw, hwl, hh]; omega
  by_cases h11 : In wide c
  · rw [if_pos h11, if_pos (hiff.1 h11)]
  · rw [if_neg h11, if_neg (fun h => h11 (hiff.2 h))]

theorem mkWidth_eq (cfg : Cfg) (c : Nat) : mkWidth cfg c = some (
    if c = 0 then 0 else if Control c then -1 else if cfg.color ∧ In unqualified c then 1 else if cfg.color ∧ In emojis c then 2
    else if In combining c then cfg.mark else if In wide c then 2 else 1) := by
  unfold mkWidth
  by_cases h0 : c = 0
  · simp [h0]
  rw [if_neg h0, if_neg h0]
  by_cases h1 : c < 32
  · have : Control c := by unfold Control; omega
    rw [if_pos h1, if_pos this]
  rw [if_neg h1]
  by_cases h2 : c ≤ 0x7e
  · have : ¬ Control c := by unfold Control; omega
    rw [if_pos h2, if_neg this, if_neg (fun h => by have := unqualified_ge h.2; omega),
      if_neg (fun h => by have := emojis_ge h.2; omega), if_neg (fun h => by have := combining_ge h; omega), if_neg (fun h => by have := wide_ge h; omega)]
  rw [if_neg h2]
  by_cases h3 : c < 0xa0
  · have : Control c := by unfold Control; omega
    rw [if_pos h3, if_pos this]
  have hnc : ¬ Control c := by unfold Control; omega
  rw [if_neg h3, if_neg hnc]
  have hrest := afterEmoji_eq cfg c
  cases hcol : cfg.color with
  | false => simpa using hrest
  | true =>
    rw [find_unqualified, find_emojis]
    by_cases h4 : In unqualified c
    · simp [h4]
    by_cases h5 : In emojis c
    · simp [h4, h5]
    simp [h4, h5, hrest]

theorem ucs2End_eq (cfg : Cfg) (c : Nat) (h5 : ¬ c < 0x1100) : ucs2End cfg c = some (
    if c ≥ 0x10000 ∨ cfg.win10 ∧ (In wideLow c ∨ cfg.win11 ∧ In ucs2Emoji c) then 2 else 1) := by
  unfold ucs2End
  have hwl := wideLow_iff c
  have hh := halfwidth_iff c
  cases h10 : cfg.win10 with
  | false => by_cases hc : c ≥ 0x10000 <;> simp [hc]
  | true =>
    simp only [if_true, true_and]
    by_cases h6 : c ≤ 0x115f
    · rw [if_pos h6, if_pos (.inr (.inl (hwl.2 (by omega))))]
    rw [if_neg h6]
    by_cases h7 : c = 0x2329 ∨ c = 0x232a
    · rw [if_pos h7, if_pos (.inr (.inl (hwl.2 (by omega))))]
    rw [if_neg h7]
    have hb : (if cfg.win11 then bisearch ucs2Emoji c else some false) = some (decide (cfg.win11 = true ∧ In ucs2Emoji c)) := by
      rw [find_ucs2Emoji]
      cases cfg.win11 <;> simp
    rw [hb]
    by_cases hem : cfg.win11 = true ∧ In ucs2Emoji c
    · have hn : c ≥ 0x10000 ∨ In wideLow c ∨ cfg.win11 = true ∧ In ucs2Emoji c := .inr (.inr hem)
      rw [if_pos hn]
      simp [hem]
    simp only [hem, decide_false, Bool.false_eq_true, if_false, Option.bind_eq_bind, Option.bind_some, Option.pure_def, or_false]
    rw [cjk_eq]
    by_cases h8 : c ≥ 0x2e80 ∧ c ≤ 0xa4cf
    · rw [if_pos h8]
      by_cases h9 : In halfwidth c
      · have h9' := hh.1 h9
        have hn : ¬ (c ≥ 0x10000 ∨ In wideLow c) := by rw [hwl, hh]; omega
        rw [if_pos h9, if_neg hn]
      · have hn : c ≥ 0x10000 ∨ In wideLow c := .inr (hwl.2 (.inr (.inr (.inl ⟨h8, h9⟩))))
        rw [if_neg h9, if_pos hn]
    rw [if_neg h8]
    by_cases h10 : c ≥ 0xac00 ∧ c ≤ 0xd7a3
    · rw [if_pos h10, if_neg (fun h => by rw [hh] at h; omega), if_pos (.inr (hwl.2 (by omega)))]
    rw [if_neg h10]
    by_cases h11 : (c ≥ 0xf900 ∧ c ≤ 0xfaff) ∨ (c ≥ 0xfe10 ∧ c ≤ 0xfe19) ∨ (c ≥ 0xfe30 ∧ c ≤ 0xfe6f)
    · rw [if_pos h11, if_pos (.inr (hwl.2 (by omega)))]
    rw [if_neg h11]
    by_cases h12 : (c ≥ 0xff00 ∧ c ≤ 0xff60) ∨ (c ≥ 0xffe0 ∧ c ≤ 0xffe6)
    · rw [if_pos h12, if_pos (.inr (hwl.2 (by omega)))]
    rw [if_neg h12]
    have : ¬ In wideLow c := by rw [hwl, hh]; omega
    simp only [this, or_false]

theorem mkWidthUcs2_eq (cfg : Cfg) (c : Nat) : mkWidthUcs2 cfg c = some (
    if c = 0 then 0 else if Control c then -1 else if In combining c then cfg.mark
    else if c ≥ 0x10000 ∨ cfg.win10 ∧ (In wideLow c ∨ cfg.win11 ∧ In ucs2Emoji c) then 2 else 1) := by
  unfold mkWidthUcs2
  by_cases h0 : c = 0
  · simp [h0]
  rw [if_neg h0, if_neg h0]
  have hlow : c < 0x1100 → ¬ (c ≥ 0x10000 ∨ cfg.win10 ∧ (In wideLow c ∨ cfg.win11 ∧ In ucs2Emoji c)) := by
    rintro h (h1 | ⟨_, h1 | ⟨_, h1⟩⟩)
    · omega
    · have := wideLow_ge h1; omega
    · have := ucs2Emoji_ge h1; omega
  by_cases h1 : c < 32
  · have : Control c := by unfold Control; omega
    rw [if_pos h1, if_pos this]
  rw [if_neg h1]
  by_cases h2 : c ≤ 0x7e
  · have : ¬ Control c := by unfold Control; omega
    rw [if_pos h2, if_neg this, if_neg (fun h => by have := combining_ge h; omega), if_neg (hlow (by omega))]
  rw [if_neg h2]
  by_cases h3 : c < 0xa0
  · have : Control c := by unfold Control; omega
    rw [if_pos h3, if_pos this]
  have hnc : ¬ Control c := by unfold Control; omega
  rw [if_neg h3, if_neg hnc, find_combining]
  by_cases h4 : In combining c
  · simp [h4]
  simp only [h4, decide_false, Bool.false_eq_true, if_false, Option.bind_eq_bind, Option.bind_some, Option.pure_def]
  by_cases h5 : c < 0x1100
  · rw [if_pos h5, if_neg (hlow h5)]
  rw [if_neg h5, ucs2End_eq cfg c h5]

theorem mkWidthCjk_eq (h : Host) (m : Mode) (other : Nat → Option Int) (c : Nat) :
    mkWidthCjk h m other c = if In ambiguous c then some (resolve h m c) else other c := by
  unfold mkWidthCjk
  rw [find_ambiguous]
  by_cases h1 : In ambiguous c <;> simp [h1]

end Clink.WcWidth
