import Verif.Proof.Stream

/-! Reading from a session stream. -/

namespace Clink.Stream

open Spec

theorem decode_cons (c : Nat) (r : List Nat) : decode (c :: r) = if c = 13 ∧ r.head? = some 10 then 10 :: decode (r.drop 1) else c :: decode r := by
  match r with
  | [] => simp [decode]
  | c' :: r => simp [decode]

theorem decode_append : ∀ (n : Nat) (a b : List Nat), a.length ≤ n → (a.getLast? ≠ some 13 ∨ b.head? ≠ some 10) → decode (a ++ b) = decode a ++ decode b
  | _, [], b, _, _ => by simp [decode]
  | n + 1, [c], b, _, h => by
    rw [List.singleton_append, decode_cons, if_neg]
    · rfl
    · rintro ⟨rfl, h2⟩
      simp [h2] at h
  | n + 1, c :: c' :: a, b, hn, h => by
    rw [List.cons_append, decode_cons, decode_cons]
    simp only [List.length_cons] at hn
    rw [show (c' :: a ++ b).head? = (c' :: a).head? from rfl]
    split
    · rw [List.cons_append, List.cons_append]
      simp only [List.drop_succ_cons, List.drop_zero]
      rw [decode_append n a b (by omega)]
      rcases h with h | h
      · left
        intro ha
        apply h
        have : a ≠ [] := by rintro rfl; simp at ha
        rw [List.getLast?_cons, List.getLast?_cons, ha]
        rfl
      · exact .inr h
    · rw [decode_append n (c' :: a) b (by simp; omega)]
      · rfl
      rcases h with h | h
      · left
        rw [List.getLast?_cons] at h
        intro ha
        exact h (by rw [ha]; rfl)
      · exact .inr h

theorem decode_length : ∀ (n : Nat) (l : List Nat), l.length ≤ n → (decode l).length ≤ l.length
  | _, [], _ => by simp [decode]
  | 0, _ :: _, h => by simp at h
  | n + 1, c :: r, h => by
    simp only [List.length_cons] at h
    rw [decode_cons]
    split
    · have := decode_length n (r.drop 1) (by simp; omega)
      have hr : r ≠ [] := by rename_i h; rintro rfl; simp at h
      have := List.length_pos_iff.2 hr
      simp only [List.length_cons, List.length_drop] at *
      omega
    · have := decode_length n r (by omega)
      simp only [List.length_cons]; omega

theorem decode_id : ∀ (l : List Nat), 10 ∉ l → decode l = l
  | [], _ => rfl
  | c :: r, h => by
    rw [decode_cons, if_neg, decode_id r fun h' => h (by simp [h'])]
    rintro ⟨-, h2⟩
    exact h (by simp [List.mem_of_head? h2])

theorem readText_go : ∀ (n : Nat) (l : List Nat), (readText n l).2 ≤ l.length ∧ Divides true l (l.take (readText n l).2) (l.drop (readText n l).2) ∧
    (readText n l).1 = decode (l.take (readText n l).2) ∧ (readText n l).1.length ≤ n ∧ ((readText n l).1.length < n → l.drop (readText n l).2 = [])
  | 0, l => by simp [readText, Divides, dec, decode]
  | n + 1, [] => by simp [readText, Divides, dec, decode]
  | n + 1, c :: r => by
    unfold readText
    split
    · rename_i h
      obtain ⟨i1, ⟨-, i2⟩, i3, i4, i5⟩ := readText_go n (r.drop 1)
      match r, h with
      | c' :: r, h =>
        obtain ⟨rfl, h2⟩ := h
        simp only [List.head?_cons, Option.some.injEq] at h2
        subst h2
        simp only [List.drop_succ_cons, List.drop_zero, dec, if_true] at i1 i2 i3 i4 i5 ⊢
        refine ⟨by simp; omega, ⟨by simp, ?_⟩, ?_, by simp; omega, ?_⟩
        · simp only [dec, if_true, List.take_succ_cons, decode_cons, List.head?_cons, and_self, List.drop_succ_cons, List.drop_zero, List.cons_append, i2]
        · simp only [List.take_succ_cons, decode_cons, List.head?_cons, and_self, if_true, List.drop_succ_cons, List.drop_zero, i3]
        · intro h
          simp only [List.length_cons] at h
          simpa using i5 (by omega)
    · rename_i h
      obtain ⟨i1, ⟨-, i2⟩, i3, i4, i5⟩ := readText_go n r
      simp only [dec, if_true] at i2
      have hh : ¬ (c = 13 ∧ (r.take (readText n r).2).head? = some 10) := by
        rintro ⟨h1, h2⟩
        refine h ⟨h1, ?_⟩
        rw [List.head?_take] at h2
        split at h2 <;> simp_all
      refine ⟨by simp; omega, ⟨by simp, ?_⟩, ?_, by simp; omega, ?_⟩
      · simp only [dec, if_true, List.take_succ_cons, List.drop_succ_cons]
        rw [decode_cons, if_neg h, decode_cons, if_neg hh, i2]
        rfl
      · simp only [List.take_succ_cons]
        rw [decode_cons, if_neg hh, i3]
      · intro h
        simp only [List.length_cons] at h
        simpa using i5 (by omega)

theorem read_go (text : Bool) (n : Nat) (l : List Nat) : (read text n l).2 ≤ l.length ∧ Divides text l (l.take (read text n l).2) (l.drop (read text n l).2) ∧
    (read text n l).1 = dec text (l.take (read text n l).2) ∧ (read text n l).1.length ≤ n ∧ ((read text n l).1.length < n → l.drop (read text n l).2 = []) := by
  cases text with
  | true =>
    have := readText_go n l
    simpa [read, dec] using this
  | false =>
    simp only [read, Divides, dec, Bool.false_eq_true, if_false]
    refine ⟨by omega, by simp, ?_, by simp; omega, ?_⟩
    · apply List.ext_getElem?
      intro i
      simp only [List.getElem?_take]
      split
      · split
        · rfl
        · rw [List.getElem?_eq_none (by omega)]
      · rw [if_neg (by omega)]
    · intro h
      simp only [List.length_take] at h
      exact List.drop_eq_nil_of_le (by omega)

theorem dec_nil (text : Bool) : dec text [] = [] := by unfold dec; split <;> rfl

theorem dec_length (text : Bool) (l : List Nat) : (dec text l).length ≤ l.length := by
  unfold dec
  split
  · exact decode_length _ l (Nat.le_refl _)
  · exact Nat.le_refl _

theorem readAll_go {max : Nat} (hm : 0 < max) (text : Bool) : ∀ (n rlen : Nat) (l : List Nat), l.length ≤ n → 0 < rlen → readAll max text rlen l = (dec text l, l.length)
  | n, rlen, l, hn, hr => by
    obtain ⟨i1, ⟨i2, i3⟩, i4, i5, i6⟩ := read_go text rlen l
    unfold readAll
    dsimp only
    by_cases hstop : (read text rlen l).1.length < rlen ∨ rlen = 0 ∨ l = []
    · rw [dif_pos hstop]
      have hd : l.drop (read text rlen l).2 = [] := by
        rcases hstop with h | h | h
        · exact i6 h
        · omega
        · subst h; simp
      have hl : l.length ≤ (read text rlen l).2 := List.drop_eq_nil_iff.1 hd
      have he : (read text rlen l).2 = l.length := by omega
      refine Prod.ext ?_ he
      rw [i4, he, List.take_length]
    · rw [dif_neg hstop]
      simp only [not_or] at hstop
      have hp := read_pos (text := text) hstop.2.1 hstop.2.2
      have h0 := List.length_pos_iff.2 hstop.2.2
      match n, hn with
      | 0, hn => omega
      | n + 1, hn =>
        rw [readAll_go hm text n _ _ (by simp; omega) (by omega)]
        refine Prod.ext ?_ ?_
        · dsimp only; rw [i4, i3]
        · simp; omega

theorem getsGo_line (text : Bool) : ∀ (n : Nat) (w acc r : List Nat), 10 ∉ w → w.length < n →
    getsGo text n acc (w ++ 10 :: r) = (if text ∧ (acc ++ w).getLast? = some 13 then (acc ++ w).dropLast ++ [10] else acc ++ w ++ [10], w.length + 1)
  | 0, _, _, _, _, h => by simp at h
  | n + 1, [], acc, r, _, _ => by simp [getsGo]
  | n + 1, c :: w, acc, r, h, hl => by
    have hc : c ≠ 10 := fun hc => h (by simp [hc])
    rw [List.cons_append, getsGo, if_neg hc, getsGo_line text n w _ r (fun h' => h (by simp [h'])) (by simp at hl; omega)]
    simp

theorem getsGo_part (text : Bool) : ∀ (n : Nat) (l acc : List Nat), 10 ∉ l.take n → getsGo text n acc l = (acc ++ l.take n, min n l.length)
  | 0, _, _, _ => by simp [getsGo]
  | n + 1, [], acc, _ => by simp [getsGo]
  | n + 1, c :: l, acc, h => by
    have hc : c ≠ 10 := fun hc => h (by simp [hc])
    rw [getsGo, if_neg hc, getsGo_part text n l _ (fun h' => h (by simp [h']))]
    simp

theorem takeWhile_all {l : List Nat} (h : 0 ∉ l) : l.takeWhile (· != 0) = l := by
  induction l with
  | nil => rfl
  | cons a l ih =>
    have h0 : a ≠ 0 := fun h' => h (by simp [h'])
    rw [List.takeWhile_cons, if_pos (by simpa using h0), ih fun h' => h (by simp [h'])]

/-- A line without its end. -/
def body (text : Bool) (w : List Nat) : List Nat := if text ∧ w.getLast? = some 13 then w.dropLast else w

theorem readLine_line {buf : Nat} (hb : 2 ≤ buf) (text chop : Bool) : ∀ (n : Nat) (w acc r : List Nat), w.length ≤ n → 10 ∉ w → 0 ∉ w →
    (text = true → ∀ w', w = w' ++ [13] → (w'.length + 1) % (buf - 1) ≠ 0) →
    readLine buf text chop (w ++ 10 :: r) acc = (acc ++ body text w ++ (if chop then [] else [10]), true, w.length + 1)
  | n, w, acc, r, hn, h10, h0, hcr => by
    rw [readLine]
    by_cases hl : w.length < buf - 1
    · have hg : gets text buf (w ++ 10 :: r) = (body text w ++ [10], w.length + 1) := by
        rw [gets, getsGo_line text _ w [] r h10 hl]
        unfold body
        simp only [List.nil_append]
        split <;> rfl
      have hbody : 0 ∉ body text w ++ [10] := by
        unfold body
        split
        · intro h
          simp at h
          exact h0 ((List.dropLast_sublist _).mem h)
        · simpa using h0
      simp only [hg]
      rw [dif_neg (by simp; omega), takeWhile_all hbody, if_neg (by simp)]
      refine Prod.ext ?_ rfl
      cases chop <;> simp
    · have ht : (w ++ 10 :: r).take (buf - 1) = w.take (buf - 1) := List.take_append_of_le_length (by omega)
      have hg : gets text buf (w ++ 10 :: r) = (w.take (buf - 1), buf - 1) := by
        rw [gets, getsGo_part text _ _ [] (by rw [ht]; exact fun h => h10 (List.mem_of_mem_take h)), ht]
        simp; omega
      have hs : (w.take (buf - 1)).takeWhile (· != 0) = w.take (buf - 1) := takeWhile_all fun h => h0 (List.mem_of_mem_take h)
      have hne : w.take (buf - 1) ≠ [] := by
        intro h
        have := congrArg List.length h
        simp only [List.length_take, List.length_nil] at this
        omega
      simp only [hg, hs]
      rw [dif_neg (by simp [hne]; omega), if_pos (by
        intro h
        exact h10 (List.mem_of_mem_take (List.mem_of_getLast? h)))]
      rw [List.drop_append_of_le_length (by omega)]
      match n, hn with
      | 0, hn => omega
      | n + 1, hn =>
      rw [readLine_line hb text chop n (w.drop (buf - 1)) _ r (by simp; omega) (fun h => h10 (List.mem_of_mem_drop h)) (fun h => h0 (List.mem_of_mem_drop h)) (by
        intro htx w' hw
        have h1 := hcr htx (w.take (buf - 1) ++ w') (by rw [List.append_assoc, ← hw, List.take_append_drop])
        rw [List.length_append, List.length_take, Nat.min_eq_left (by omega), Nat.add_assoc, Nat.add_mod_left] at h1
        exact h1)]
      have hbd : w.take (buf - 1) ++ body text (w.drop (buf - 1)) = body text w := by
        unfold body
        by_cases hd : w.drop (buf - 1) = []
        · have hwl : w.length = buf - 1 := by have := List.drop_eq_nil_iff.1 hd; omega
          rw [hd, if_neg (by simp)]
          rw [if_neg, List.append_nil, List.take_of_length_le (by omega)]
          rintro ⟨h1, h2⟩
          obtain ⟨w', hw'⟩ := List.getLast?_eq_some_iff.1 h2
          apply hcr h1 w' hw'
          have h3 : w'.length + 1 = buf - 1 := by rw [← hwl, hw']; simp
          rw [h3, Nat.mod_self]
        · have hlast : (w.drop (buf - 1)).getLast? = w.getLast? := by
            rw [List.getLast?_drop]
            rw [if_neg (by intro h; exact hd (List.drop_eq_nil_iff.2 h))]
          rw [hlast]
          split
          · rename_i h
            obtain ⟨w', hw'⟩ := List.getLast?_eq_some_iff.1 h.2
            have h3 : buf - 1 ≤ w'.length := by
              rcases Nat.lt_or_ge w'.length (buf - 1) with h4 | h4
              · exact absurd (List.drop_eq_nil_of_le (by rw [hw']; simp; omega)) hd
              · exact h4
            rw [hw', List.drop_append_of_le_length h3, List.take_append_of_le_length h3]
            simp
          · exact List.take_append_drop _ _
      refine Prod.ext ?_ (Prod.ext rfl ?_)
      · dsimp only
        rw [← hbd]
        simp
      · simp; omega

theorem readLine_last {buf : Nat} (hb : 2 ≤ buf) (text chop : Bool) : ∀ (n : Nat) (l acc : List Nat), l.length ≤ n → 10 ∉ l → 0 ∉ l →
    readLine buf text chop l acc = (acc ++ l, !(acc ++ l).isEmpty, l.length)
  | n, l, acc, hn, h10, h0 => by
    rw [readLine]
    have hg : gets text buf l = (l.take (buf - 1), min (buf - 1) l.length) := by
      rw [gets, getsGo_part text _ _ [] (fun h => h10 (List.mem_of_mem_take h))]
      rfl
    have hs : (l.take (buf - 1)).takeWhile (· != 0) = l.take (buf - 1) := takeWhile_all fun h => h0 (List.mem_of_mem_take h)
    simp only [hg, hs]
    by_cases hl : l = []
    · subst hl
      rw [dif_pos (by simp)]
      simp
    · have h1 := List.length_pos_iff.2 hl
      have hne : l.take (buf - 1) ≠ [] := by
        intro h
        have := congrArg List.length h
        simp only [List.length_take, List.length_nil] at this
        omega
      rw [dif_neg (by simp only [not_or]; exact ⟨hne, hl, by omega⟩), if_pos (by
        intro h
        exact h10 (List.mem_of_mem_take (List.mem_of_getLast? h)))]
      match n, hn with
      | 0, hn => omega
      | n + 1, hn =>
      rw [readLine_last hb text chop n _ _ (by simp; omega) (fun h => h10 (List.mem_of_mem_drop h)) (fun h => h0 (List.mem_of_mem_drop h))]
      have hd : l.drop (min (buf - 1) l.length) = l.drop (buf - 1) := by
        rcases Nat.le_total (buf - 1) l.length with h | h
        · rw [Nat.min_eq_left h]
        · rw [Nat.min_eq_right h, List.drop_length, List.drop_eq_nil_of_le h]
      rw [hd, List.append_assoc, List.take_append_drop]
      refine Prod.ext rfl (Prod.ext rfl ?_)
      simp; omega

end Clink.Stream
