import Verif.Spec.Settings
import Verif.Proof.Utf
import Verif.Props.StrCompare

/-! Settings with options. -/

namespace Clink.Settings

open Spec Color.Spec

theorem utf8_reads {l : List Nat} (h : Utf8 l) : ∃ cs, Reads l cs := by
  induction h with
  | nil => exact ⟨[], [], ⟨.nil _, rfl⟩, rfl⟩
  | @cons c l hc h ih =>
    obtain ⟨cs, suf, ⟨h1, h2⟩, h3⟩ := ih
    exact ⟨c :: cs, suf, ⟨.cons (Utf.next8_spec c hc.1 hc.2.1 l) (by have := hc.1; omega) h1, h2⟩, h3⟩

theorem same_refl (lower : Nat → Nat) {l : List Nat} (h : Utf8 l) : Same lower l l := by
  obtain ⟨cs, h⟩ := utf8_reads h
  exact ⟨cs, cs, h, h, rfl⟩

theorem matchOption_iff (env : Env) (a b : List Nat) : matchOption env a b = true ↔ Same env.lower a b := by
  unfold matchOption
  rw [decide_eq_true_iff]
  obtain ⟨cs, sl, hl⟩ := Text.exists Utf.iter8 a
  obtain ⟨ds, sr, hr⟩ := Text.exists Utf.iter8 b
  obtain ⟨pl, ql, pr, qr, e1, e2, s1, t1, s2, t2, k1, k2, k3, k4⟩ := StrCompare.loop_spec env.lower Utf.iter8 ⟨1, false, false⟩ a b cs ds sl sr hl hr
  have hsuf : ∀ {e q s : List Nat}, Text Utf.iter8 e q s → Utf.more e = false → Utf.more s = false := by
    intro e q s ht he
    have := (ht.nil_inv (StrCompare.peek8_end e he)).2
    rw [this]
    exact he
  constructor
  · intro h
    have hm : Utf.more (StrCompare.loop env.lower Utf.iter8 ⟨1, false, false⟩ a b).1 = false ∧
        Utf.more (StrCompare.loop env.lower Utf.iter8 ⟨1, false, false⟩ a b).2 = false := by
      unfold StrCompare.strCompare at h
      simp only [Bool.false_or] at h
      split at h
      · simp only at h; omega
      · rename_i hh; simpa using hh
    have m1 := hsuf t1 hm.1
    have m2 := hsuf t2 hm.2
    refine ⟨cs, ds, ⟨sl, hl, m1⟩, ⟨sr, hr, m2⟩, ?_⟩
    refine (StrCompare.C29_equal env.lower Utf.iter8 ⟨1, false, false⟩ a b cs ds sl sr hl hr m1 m2 StrCompare.peek8_end).1.1 ?_
    unfold StrCompare.strCompare
    simp only [Bool.false_or, hm.1, hm.2]
    rfl
  · rintro ⟨cs', ds', ⟨sl', hl', m1⟩, ⟨sr', hr', m2⟩, hk⟩
    have := (StrCompare.C29_equal env.lower Utf.iter8 ⟨1, false, false⟩ a b cs' ds' sl' sr' hl' hr' m1 m2 StrCompare.peek8_end).1.2 hk
    omega

theorem nextOption_comma {w : List Nat} (h : 44 ∉ w) (t : List Nat) : nextOption (w ++ 44 :: t) = t := by
  induction w with
  | nil => rw [List.nil_append, nextOption, if_pos rfl]
  | cons c w ih =>
    simp only [List.mem_cons, not_or] at h
    rw [List.cons_append, nextOption, if_neg (Ne.symm h.1), ih h.2]

theorem nextOption_last {w : List Nat} (h : 44 ∉ w) : nextOption w = [] := by
  induction w with
  | nil => rfl
  | cons c w ih =>
    simp only [List.mem_cons, not_or] at h
    rw [nextOption, if_neg (Ne.symm h.1), ih h.2]

theorem options_ne {o : List Nat} {ws : List (List Nat)} (h : Options o ws) : o ≠ [] := by
  cases h with
  | last hne h => exact hne
  | more h ht => simp

theorem optionHere_last {w : List Nat} (h : 44 ∉ w) : optionHere w = w := by
  unfold optionHere
  simp [nextOption_last h]

theorem optionHere_more {w t : List Nat} (h : 44 ∉ w) (ht : t ≠ []) : optionHere (w ++ 44 :: t) = w := by
  unfold optionHere
  simp only [nextOption_comma h, if_neg ht, List.length_append, List.length_cons]
  rw [show w.length + (t.length + 1) - t.length - 1 = w.length by omega]
  simp

theorem enumLoop_eq (env : Env) (value : List Nat) (i : Nat) (b : Int) {o : List Nat} (h : o ≠ []) :
    enumLoop env value i b o =
      if b = 0 ∨ matchOption env (optionHere o) value = true then some (.num i) else enumLoop env value (i + 1) (b - 1) (nextOption o) := by
  rw [enumLoop, dif_neg h]

/-- Options by their places. -/
theorem enumLoop_spec (env : Env) (value : List Nat) {o : List Nat} {ws : List (List Nat)} (h : Options o ws) (i : Nat) (b : Int) :
    (∃ k, enumLoop env value i b o = some (.num ((i + k : Nat) : Int)) ∧ k < ws.length ∧
      (b = k ∨ ∃ w, ws[k]? = some w ∧ Same env.lower w value) ∧ ∀ j < k, b ≠ j ∧ ∀ w, ws[j]? = some w → ¬ Same env.lower w value) ∨
    (enumLoop env value i b o = none ∧ ∀ j < ws.length, b ≠ j ∧ ∀ w, ws[j]? = some w → ¬ Same env.lower w value) := by
  induction h generalizing i b with
  | @last w hne h =>
    rw [enumLoop_eq _ _ _ _ hne, optionHere_last h]
    split
    · rename_i hm
      left
      refine ⟨0, rfl, by simp, ?_, by simp⟩
      rcases hm with hm | hm
      · exact .inl hm
      · exact .inr ⟨w, rfl, (matchOption_iff env w value).1 hm⟩
    · rename_i hm
      right
      rw [nextOption_last h, enumLoop, dif_pos rfl]
      refine ⟨rfl, ?_⟩
      intro j hj
      have : j = 0 := by simpa using hj
      subst this
      refine ⟨fun hb => hm (.inl hb), ?_⟩
      intro w' hw' hs
      cases hw'
      exact hm (.inr ((matchOption_iff env w value).2 hs))
  | @more w t ws h ht ih =>
    rw [enumLoop_eq _ _ _ _ (by simp), optionHere_more h (options_ne ht), nextOption_comma h]
    split
    · rename_i hm
      left
      refine ⟨0, rfl, by simp, ?_, by simp⟩
      rcases hm with hm | hm
      · exact .inl hm
      · exact .inr ⟨w, rfl, (matchOption_iff env w value).1 hm⟩
    · rename_i hm
      have h0 : b ≠ (0 : Nat) ∧ ∀ v, (w :: ws)[0]? = some v → ¬ Same env.lower v value := by
        refine ⟨fun hb => hm (.inl hb), ?_⟩
        intro w' hw' hs
        cases hw'
        exact hm (.inr ((matchOption_iff env w value).2 hs))
      have hall : ∀ n, (∀ j : Nat, j < n → b - 1 ≠ j ∧ ∀ v, ws[j]? = some v → ¬ Same env.lower v value) →
          ∀ j : Nat, j < n + 1 → b ≠ j ∧ ∀ v, (w :: ws)[j]? = some v → ¬ Same env.lower v value := by
        intro n hn j hj
        cases j with
        | zero => exact h0
        | succ j =>
          obtain ⟨x, y⟩ := hn j (by omega)
          exact ⟨by omega, by simpa using y⟩
      rcases ih (i + 1) (b - 1) with ⟨k, h1, h2, h3, h4⟩ | ⟨h1, h2⟩
      · left
        refine ⟨k + 1, by rw [h1]; congr 2; omega, by simp; omega, ?_, hall k h4⟩
        rcases h3 with h3 | h3
        · exact .inl (by omega)
        · exact .inr (by simpa using h3)
      · right
        exact ⟨h1, by simpa using hall ws.length h2⟩

theorem byInt_decimal {env : Env} (ok : AtoiOk env.atoi) {value : List Nat} {n : Nat} (h : Decimal value n) :
    byInt env value = if n < 2147483648 then (n : Int) else 2147483647 := by
  unfold byInt
  have hall : value.all isDigit = true := by
    rw [List.all_eq_true]
    intro c hc
    have := h.2.1 c hc
    simp [isDigit]
    omega
  rw [if_pos ⟨h.1, hall⟩]
  have := ok.pos (rest := []) h (by simp)
  rwa [List.append_nil] at this

theorem byInt_other {env : Env} {value : List Nat} (h : ∀ n, ¬ Decimal value n) : byInt env value = -1 := by
  unfold byInt
  rw [if_neg]
  rintro ⟨h1, h2⟩
  rw [List.all_eq_true] at h2
  refine h _ ⟨h1, fun c hc => ?_, rfl⟩
  have := h2 c hc
  simp [isDigit] at this
  omega

theorem byInt_iff {env : Env} (ok : AtoiOk env.atoi) {value : List Nat} {k : Nat} (hk : k < 2147483647) : byInt env value = k ↔ Decimal value k := by
  constructor
  · intro h
    apply Classical.byContradiction
    intro hn
    by_cases hd : ∃ n, Decimal value n
    · obtain ⟨n, hd⟩ := hd
      rw [byInt_decimal ok hd] at h
      split at h
      · have : n = k := by omega
        subst this
        exact hn hd
      · omega
    · rw [byInt_other fun n hd' => hd ⟨n, hd'⟩] at h
      omega
  · intro h
    rw [byInt_decimal ok h, if_pos (by omega)]

theorem repeat_nextOption {o : List Nat} {ws : List (List Nat)} (h : Options o ws) (k : Nat) :
    (k < ws.length → ∃ v w, Nat.repeat nextOption k o = v ∧ v ≠ [] ∧ ws[k]? = some w ∧ optionHere v = w) ∧
    (ws.length ≤ k → Nat.repeat nextOption k o = []) := by
  have comm : ∀ k o, Nat.repeat nextOption (k + 1) o = Nat.repeat nextOption k (nextOption o) := by
    intro k
    induction k with
    | zero => intro o; rfl
    | succ k ih =>
      intro o
      show nextOption (Nat.repeat nextOption (k + 1) o) = nextOption (Nat.repeat nextOption k (nextOption o))
      rw [ih]
  have hnil : ∀ k, Nat.repeat nextOption k [] = [] := by
    intro k
    induction k with
    | zero => rfl
    | succ k ih => rw [comm]; exact ih
  induction h generalizing k with
  | @last w hne h =>
    constructor
    · intro hk
      have : k = 0 := by simpa using hk
      subst this
      exact ⟨w, w, rfl, hne, rfl, optionHere_last h⟩
    · intro hk
      cases k with
      | zero => simp at hk
      | succ k => rw [comm, nextOption_last h, hnil]
  | @more w t ws h ht ih =>
    cases k with
    | zero => exact ⟨fun _ => ⟨w ++ 44 :: t, w, rfl, by simp, rfl, optionHere_more h (options_ne ht)⟩, by simp⟩
    | succ k =>
      rw [comm, nextOption_comma h]
      obtain ⟨i1, i2⟩ := ih k
      exact ⟨fun hk => by simpa using i1 (by simpa using hk), fun hk => i2 (by simpa using hk)⟩

end Clink.Settings
