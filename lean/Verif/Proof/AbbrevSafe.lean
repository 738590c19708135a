import Verif.Proof.AbbrevAll
import Verif.Proof.Path
/- Helper lemmas for C55: nothing is read outside of the text. -/
namespace Clink.Abbrev
open Clink.Path Clink.Path.Spec
open Clink.StrCompare (isSep)

theorem at_cstr {s : List Nat} (h : 0 ∉ s) : At (Path.cstr s) 0 s := ⟨⟨[], rfl⟩, h⟩

theorem at_step {m l : List Nat} {p i : Nat} (h : At m (p + i) l) {c : Nat} (hr : Path.rd m (p + i) = some c) (hc : c ≠ 0) :
    At m (p + (i + 1)) (l.drop 1) := by
  cases l with
  | nil => rw [h.rd0] at hr; simp at hr; omega
  | cons x l => exact h.tail

theorem read_at {m l : List Nat} {p : Nat} (h : At m p l) : ∃ c, Path.rd m p = some c := ⟨_, h.rd0⟩

theorem sep_ne_zero {c : Nat} (h : isSep c = true) : c ≠ 0 := by
  rintro rfl; exact absurd h (by decide)

theorem uncAt_some {m l : List Nat} {q : Nat} (h : At m q l) :
    ∃ b, uncAt m q = some b ∧ (b = true → ∃ l', At m (q + 4) l') := by
  obtain ⟨c0, h0⟩ := read_at h
  unfold uncAt
  simp only [h0, Option.bind_eq_bind, Option.bind_some]
  by_cases e0 : c0 ≠ 85 ∧ c0 ≠ 117
  · rw [if_pos e0]; exact ⟨false, rfl, by simp⟩
  rw [if_neg e0]
  have a1 := at_step (i := 0) h h0 (by omega)
  obtain ⟨c1, h1⟩ := read_at a1
  simp only [Nat.zero_add] at h1 a1
  simp only [h1, Option.bind_some]
  by_cases e1 : c1 ≠ 78 ∧ c1 ≠ 110
  · rw [if_pos e1]; exact ⟨false, rfl, by simp⟩
  rw [if_neg e1]
  have a2 := at_step a1 h1 (by omega)
  obtain ⟨c2, h2⟩ := read_at a2
  simp only [h2, Option.bind_some]
  by_cases e2 : c2 ≠ 67 ∧ c2 ≠ 99
  · rw [if_pos e2]; exact ⟨false, rfl, by simp⟩
  rw [if_neg e2]
  have a3 := at_step a2 h2 (by omega)
  obtain ⟨c3, h3⟩ := read_at a3
  simp only [h3, Option.bind_some]
  exact ⟨_, rfl, fun hb => ⟨_, at_step a3 h3 (sep_ne_zero hb)⟩⟩

theorem incompleteFrom_some {m l : List Nat} {q : Nat} (h : At m q l) : ∃ b, incompleteFrom m q = some b := by
  obtain ⟨q1, e1, a1, _⟩ := skipSep_to h
  obtain ⟨c1, h1⟩ := read_at a1
  obtain ⟨q2, e2, a2, _⟩ := skipNonsep_to a1
  obtain ⟨c2, h2⟩ := read_at a2
  obtain ⟨q3, e3, a3, _⟩ := skipSep_to a2
  obtain ⟨c3, h3⟩ := read_at a3
  obtain ⟨q4, e4, a4, _⟩ := skipNonsep_to a3
  obtain ⟨c4, h4⟩ := read_at a4
  unfold incompleteFrom
  simp only [e1, h1, e2, h2, e3, h3, e4, h4, Option.bind_eq_bind, Option.bind_some]
  split
  · exact ⟨_, rfl⟩
  · split
    · exact ⟨_, rfl⟩
    · split <;> exact ⟨_, rfl⟩

theorem isIncompleteUnc_some {m l : List Nat} (h : At m 0 l) : ∃ b, isIncompleteUnc m = some b := by
  obtain ⟨c0, h0⟩ := read_at h
  unfold isIncompleteUnc
  simp only [h0, Option.bind_eq_bind, Option.bind_some]
  cases e0 : isSep c0 with
  | false => exact ⟨_, rfl⟩
  | true =>
    have a1 := at_step (p := 0) (i := 0) h h0 (sep_ne_zero e0)
    simp only [Nat.zero_add] at a1
    obtain ⟨c1, h1⟩ := read_at a1
    simp only [h1, Option.bind_some, Bool.not_true, Bool.false_eq_true, if_false]
    cases e1 : isSep c1 with
    | false => exact ⟨_, rfl⟩
    | true =>
      have a2 := at_step (p := 0) (i := 1) (by simpa using a1) (by simpa using h1) (sep_ne_zero e1)
      simp only [Nat.zero_add] at a2
      obtain ⟨c2, h2⟩ := read_at a2
      simp only [h2, Option.bind_some, Bool.not_true, Bool.false_eq_true, if_false]
      by_cases e2 : c2 = 63
      · rw [if_pos e2]
        have a3 := at_step (p := 0) (i := 2) (by simpa using a2) (by simpa using h2) (by omega)
        simp only [Nat.zero_add] at a3
        obtain ⟨c3, h3⟩ := read_at a3
        simp only [h3, Option.bind_some]
        cases e3 : isSep c3 with
        | false => exact ⟨_, rfl⟩
        | true =>
          have a4 := at_step (p := 0) (i := 3) (by simpa using a3) (by simpa using h3) (sep_ne_zero e3)
          simp only [Nat.zero_add] at a4
          obtain ⟨q, eq, aq, _⟩ := skipSep_to a4
          obtain ⟨b, hb, hb'⟩ := uncAt_some aq
          simp only [eq, hb, Option.bind_some, Bool.not_true, Bool.false_eq_true, if_false]
          cases b with
          | false => exact ⟨_, rfl⟩
          | true => obtain ⟨l', hl'⟩ := hb' rfl; exact incompleteFrom_some hl'
      · rw [if_neg e2]; exact incompleteFrom_some h

theorem getDrive_some {m l : List Nat} {p : Nat} (h : At m p l) : ∃ d, getDrive m p = some d := by
  have hs := pastSsqs_at h
  have hl : l.length - ((afterSsqs l).getD l).length ≤ l.length := by omega
  have a := h.drop hl
  obtain ⟨c, hc⟩ := read_at a
  unfold getDrive
  simp only [hs, hc, Option.bind_eq_bind, Option.bind_some]
  by_cases h0 : c = 0
  · rw [if_pos h0]; exact ⟨_, rfl⟩
  · rw [if_neg h0]
    obtain ⟨c1, h1⟩ : ∃ c, Path.rd m (p + (l.length - ((afterSsqs l).getD l).length) + 1) = some c :=
      read_at (at_step (i := 0) a hc h0)
    simp only [h1, Option.bind_some]
    split <;> exact ⟨_, rfl⟩

end Clink.Abbrev
