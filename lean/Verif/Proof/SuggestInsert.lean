import Verif.Proof.Suggest
/- Proofs for C52: words and accepting. -/
namespace Clink.Suggest
open Clink StrCompare Spec
open Clink.Utf (specUtf8 IsText)

/-! ### Following the line -/

theorem adv_nil : Utf.iter8.adv [] = [] := rfl

theorem follow_u8 {x y : List Nat} (hx : Txt x) (hy : Txt y) (len off : Nat) (q : Bool) (h : off + (u8 x).length ≤ len) :
    follow len off (u8 x) (u8 y) q = some (u8 (y.drop x.length), if x.count 34 % 2 = 1 then !q else q) := by
  induction x generalizing y q with
  | nil => rw [follow]; simp [u8]
  | cons c x ih =>
    rw [follow, if_neg (by rw [u8_eq_nil]; simp)]
    have e : Utf.iter8.next (u8 (c :: x)) = (c, u8 x) := next_u8 hx.head _
    have hpos : 0 < (specUtf8 c).length := List.length_pos_iff.2 (Utf.specUtf8_ne_nil c)
    have hl : (u8 (c :: x)).length = (specUtf8 c).length + (u8 x).length := by rw [u8_cons, List.length_append]
    simp only [e]
    rw [if_pos (by omega), if_pos (by omega)]
    have hy' : ∃ y', Utf.iter8.adv (u8 y) = u8 y' ∧ Txt y' ∧ y'.drop x.length = y.drop (c :: x).length := by
      cases y with
      | nil => exact ⟨[], rfl, hy, by simp⟩
      | cons d y => exact ⟨y, adv_u8 hy.head _, hy.tail, by simp⟩
    obtain ⟨y', h1, h2, h3⟩ := hy'
    rw [h1, ih hx.tail h2 _ (by omega), h3]
    congr 2
    rw [List.count_cons]
    by_cases hc : c = 34
    · subst hc
      simp only [beq_self_eq_true, if_true]
      rcases Nat.mod_two_eq_zero_or_one (x.count 34) with h | h
      · rw [if_neg (by omega), if_pos (by omega)]
      · rw [if_pos (by omega), if_neg (by omega)]; simp
    · simp [hc]

/-! ### The next word -/

def wlen (q : Bool) : List Nat → Nat
  | [] => 0
  | c :: l => if c = 34 then wlen (!q) l + 1 else if !q && blank c then 0 else wlen q l + 1

theorem skipBlanks_u8 {l : List Nat} (h : Txt l) : skipBlanks (u8 l) = u8 (l.dropWhile blank) := by
  induction l with
  | nil => rw [skipBlanks, dif_neg (by simp [u8, Iter.peek, Utf.iter8, Utf.next8, Utf.next8Loop])]; rfl
  | cons c l ih =>
    have e1 : Utf.iter8.peek (u8 (c :: l)) = c := peek_u8 h.head _
    have e3 : Utf.iter8.adv (u8 (c :: l)) = u8 l := adv_u8 h.head _
    have := h.head.1
    rw [skipBlanks, dif_pos (by rw [e1]; omega)]
    simp only [e1, e3]
    by_cases hb : blank c = true
    · rw [if_pos hb, ih h.tail, List.dropWhile_cons_of_pos hb]
    · rw [if_neg hb, List.dropWhile_cons_of_neg hb]

theorem skipWord_u8 {l : List Nat} (h : Txt l) (q : Bool) : skipWord q (u8 l) = u8 (l.drop (wlen q l)) := by
  induction l generalizing q with
  | nil => rw [skipWord, dif_neg (by simp [u8, Iter.peek, Utf.iter8, Utf.next8, Utf.next8Loop])]; simp [wlen]
  | cons c l ih =>
    have e1 : Utf.iter8.peek (u8 (c :: l)) = c := peek_u8 h.head _
    have e3 : Utf.iter8.adv (u8 (c :: l)) = u8 l := adv_u8 h.head _
    have := h.head.1
    rw [skipWord, dif_pos (by rw [e1]; omega)]
    simp only [e1, e3]
    rw [wlen]
    by_cases hc : c = 34
    · rw [if_pos hc, if_pos hc, ih h.tail, List.drop_succ_cons]
    · rw [if_neg hc, if_neg hc]
      by_cases hb : (!q && blank c) = true
      · rw [if_pos hb, if_pos hb]; rfl
      · rw [if_neg hb, if_neg hb, ih h.tail, List.drop_succ_cons]

theorem blank_iff (c : Nat) : blank c = true ↔ Blank c := by simp [blank, Blank]

theorem wlen_le (q : Bool) (l : List Nat) : wlen q l ≤ l.length := by
  induction l generalizing q with
  | nil => simp [wlen]
  | cons c l ih =>
    rw [wlen]
    have := ih q
    have := ih (!q)
    simp only [List.length_cons]
    split
    · omega
    · split <;> omega

theorem quoted_zero (q : Bool) (l : List Nat) : Quoted q l 0 ↔ q = true := by
  unfold Quoted; cases q <;> simp

theorem quoted_succ (q : Bool) (c : Nat) (l : List Nat) (j : Nat) :
    Quoted q (c :: l) (j + 1) ↔ Quoted (if c = 34 then !q else q) l j := by
  unfold Quoted
  rw [List.take_succ_cons, List.count_cons]
  by_cases h : c = 34
  · subst h
    cases q <;> simp <;> omega
  · simp [h]

theorem wlen_in (q : Bool) (l : List Nat) (j c : Nat) (hj : j < wlen q l) (hc : l[j]? = some c) (hb : Blank c) : Quoted q l j := by
  induction l generalizing q j with
  | nil => simp at hc
  | cons d l ih =>
    rw [wlen] at hj
    cases j with
    | zero =>
      simp only [List.getElem?_cons_zero, Option.some.injEq] at hc
      subst hc
      rw [quoted_zero]
      have h34 : d ≠ 34 := by unfold Blank at hb; omega
      rw [if_neg h34, (blank_iff d).2 hb] at hj
      cases q
      · simp at hj
      · rfl
    | succ j =>
      rw [List.getElem?_cons_succ] at hc
      rw [quoted_succ]
      split at hj
      · rename_i h34
        rw [if_pos h34]
        exact ih _ _ (by omega) hc
      · rename_i h34
        rw [if_neg h34]
        split at hj
        · omega
        · exact ih _ _ (by omega) hc

theorem wlen_stop (q : Bool) (l : List Nat) : wlen q l = l.length ∨ ∃ c, l[wlen q l]? = some c ∧ Blank c ∧ ¬ Quoted q l (wlen q l) := by
  induction l generalizing q with
  | nil => exact .inl rfl
  | cons c l ih =>
    rw [wlen]
    by_cases hc : c = 34
    · rw [if_pos hc]
      rcases ih (!q) with h | ⟨d, h1, h2, h3⟩
      · exact .inl (by simp [h])
      · refine .inr ⟨d, by simpa using h1, h2, ?_⟩
        rw [quoted_succ, if_pos hc]; exact h3
    · rw [if_neg hc]
      by_cases hb : (!q && blank c) = true
      · rw [if_pos hb]
        simp only [Bool.and_eq_true, Bool.not_eq_true'] at hb
        refine .inr ⟨c, rfl, (blank_iff c).1 hb.2, ?_⟩
        rw [quoted_zero, hb.1]; simp
      · rw [if_neg hb]
        rcases ih q with h | ⟨d, h1, h2, h3⟩
        · exact .inl (by simp [h])
        · refine .inr ⟨d, by simpa using h1, h2, ?_⟩
          rw [quoted_succ, if_neg hc]; exact h3

/-- The blanks at the start and the word behind them. -/
def nwLen (q : Bool) (l : List Nat) : Nat := (l.takeWhile blank).length + wlen q (l.dropWhile blank)

theorem dropWhile_eq_drop (p : Nat → Bool) (l : List Nat) : l.dropWhile p = l.drop (l.takeWhile p).length := by
  conv => rhs; arg 2; rw [← List.takeWhile_append_dropWhile (p := p) (l := l)]
  rw [List.drop_left]

theorem quoted_blanks (q : Bool) (l : List Nat) (j : Nat) :
    Quoted q l ((l.takeWhile blank).length + j) ↔ Quoted q (l.dropWhile blank) j := by
  induction l with
  | nil => simp [Quoted]
  | cons c l ih =>
    by_cases hb : blank c = true
    · rw [List.takeWhile_cons_of_pos hb, List.dropWhile_cons_of_pos hb, List.length_cons,
        show (l.takeWhile blank).length + 1 + j = (l.takeWhile blank).length + j + 1 by omega, quoted_succ]
      have h34 : c ≠ 34 := by
        have := (blank_iff c).1 hb
        unfold Blank at this; omega
      rw [if_neg h34, ih]
    · rw [List.takeWhile_cons_of_neg hb, List.dropWhile_cons_of_neg hb]
      simp

theorem nextWord (q : Bool) (l : List Nat) (hl : l ≠ []) : NextWord q l (nwLen q l) := by
  have e := dropWhile_eq_drop blank l
  have hlen : (l.takeWhile blank).length + (l.dropWhile blank).length = l.length := by
    rw [← List.length_append, List.takeWhile_append_dropWhile]
  have hle := wlen_le q (l.dropWhile blank)
  have hget : ∀ j, l[(l.takeWhile blank).length + j]? = (l.dropWhile blank)[j]? := by
    intro j; rw [e, List.getElem?_drop]
  have hnb : ∀ c, (l.dropWhile blank)[0]? = some c → ¬ Blank c := by
    intro c hc hb
    have : (l.dropWhile blank).head? = some c := by rw [List.head?_eq_getElem?]; exact hc
    have h1 := List.head?_dropWhile_not blank l
    rw [this] at h1
    simp [(blank_iff c).2 hb] at h1
  have hprog : l.dropWhile blank ≠ [] → 0 < wlen q (l.dropWhile blank) := by
    intro hne
    cases hd : l.dropWhile blank with
    | nil => exact absurd hd hne
    | cons c r =>
      have : ¬ Blank c := hnb c (by rw [hd]; rfl)
      rw [wlen]
      split
      · omega
      · rw [if_neg (by
          intro h
          simp only [Bool.and_eq_true] at h
          exact this ((blank_iff c).1 h.2))]
        omega
  refine ⟨?_, ?_, ⟨(l.takeWhile blank).length, ?_, ?_, ?_, ?_, ?_⟩, ?_⟩
  · unfold nwLen
    by_cases hne : l.dropWhile blank = []
    · have : 0 < l.length := List.length_pos_iff.2 hl
      rw [hne] at hlen
      simp at hlen
      omega
    · have := hprog hne; omega
  · unfold nwLen; omega
  · unfold nwLen; omega
  · intro j hj
    have hget' : l[j]? = (l.takeWhile blank)[j]? := by
      conv => lhs; rw [← List.takeWhile_append_dropWhile (p := blank) (l := l)]
      rw [List.getElem?_append_left hj]
    refine ⟨(l.takeWhile blank)[j], ?_, ?_⟩
    · rw [hget', List.getElem?_eq_getElem hj]
    · have hm := List.getElem_mem hj
      have := List.all_takeWhile (p := blank) (l := l)
      rw [List.all_eq_true] at this
      exact (blank_iff _).1 (this _ hm)
  · intro c hc
    exact hnb c (by rw [← hget]; exact hc)
  · by_cases hne : l.dropWhile blank = []
    · right; unfold nwLen; rw [hne] at hlen ⊢; simpa [wlen] using hlen
    · left; have := hprog hne; unfold nwLen; omega
  · intro j c h1 h2 hc hb
    obtain ⟨i, rfl⟩ := Nat.exists_eq_add_of_le h1
    rw [quoted_blanks]
    rw [hget] at hc
    exact wlen_in q _ i c (by unfold nwLen at h2; omega) hc hb
  · rcases wlen_stop q (l.dropWhile blank) with h | ⟨c, h1, h2, h3⟩
    · left; unfold nwLen; omega
    · right
      refine ⟨c, ?_, h2, ?_⟩
      · unfold nwLen; rw [hget]; exact h1
      · unfold nwLen; rw [quoted_blanks]; exact h3

theorem skip_u8 {l : List Nat} (h : Txt l) (q : Bool) : skipWord q (skipBlanks (u8 l)) = u8 (l.drop (nwLen q l)) := by
  have h' : Txt (l.dropWhile blank) := by rw [dropWhile_eq_drop]; exact h.drop _
  rw [skipBlanks_u8 h, skipWord_u8 h', nwLen]
  conv => lhs; rw [dropWhile_eq_drop blank l]
  rw [List.drop_drop, ← dropWhile_eq_drop]

/-! ### Resynchronising -/

theorem resync_u8 {l : List Nat} (h : Txt l) (j : Nat) : resync (u8 (l.take j)).length (u8 l) = some (u8 (l.drop j)) := by
  induction l generalizing j with
  | nil => rw [resync]; simp [u8]
  | cons c l ih =>
    cases j with
    | zero => rw [resync]; simp [u8]
    | succ j =>
      have hpos : 0 < (specUtf8 c).length := List.length_pos_iff.2 (Utf.specUtf8_ne_nil c)
      have e3 : Utf.iter8.adv (u8 (c :: l)) = u8 l := adv_u8 h.head _
      have hl : (u8 (c :: l)).length = (specUtf8 c).length + (u8 l).length := by rw [u8_cons, List.length_append]
      have hl' : (u8 ((c :: l).take (j + 1))).length = (specUtf8 c).length + (u8 (l.take j)).length := by
        rw [List.take_succ_cons, u8_cons, List.length_append]
      rw [resync, if_neg (by omega)]
      simp only [e3]
      rw [if_pos (by omega), show (u8 ((c :: l).take (j + 1))).length - ((u8 (c :: l)).length - (u8 l).length) =
        (u8 (l.take j)).length by omega, ih h.tail, List.drop_succ_cons]

end Clink.Suggest
