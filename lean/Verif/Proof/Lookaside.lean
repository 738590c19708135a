import Verif.Spec.Lookaside

namespace Clink.Lookaside

/-- Characters as they are written. -/
def blank (tabs : Bool) (c : Nat) : Nat := if c = 13 ∨ c = 10 ∨ (c = 9 ∧ tabs = false) then 32 else c

theorem blank_ne {tabs : Bool} {c : Nat} (h : c ≠ 0) : blank tabs c ≠ 0 := by
  unfold blank
  split
  · omega
  · exact h

theorem put_eq (done : List Nat) (x : Nat) (rest : List Nat) (c : Nat) : put (done ++ x :: rest) done.length c = some ((done ++ [c]) ++ rest, (done ++ [c]).length) := by
  unfold put
  rw [if_pos (by simp)]
  simp

theorem putAll_eq (l done skip rest : List Nat) (h : skip.length = l.length) :
    putAll l (done ++ skip ++ rest) done.length = some ((done ++ l) ++ rest, (done ++ l).length) := by
  induction l generalizing done skip with
  | nil => rw [List.length_eq_zero_iff.1 h]; simp [putAll]
  | cons c l ih =>
    obtain ⟨x, skip, rfl⟩ : ∃ x s, skip = x :: s := by cases skip with | nil => simp at h | cons x s => exact ⟨x, s, rfl⟩
    unfold putAll
    rw [show done ++ x :: skip ++ rest = done ++ x :: (skip ++ rest) by simp, put_eq]
    simp only [Option.bind_some]
    rw [← List.append_assoc, ih (done ++ [c]) skip (by simpa using h)]
    simp

theorem appendLoop_eq (tabs : Bool) (s done skip rest : List Nat) (hs : 0 ∉ s) (h : skip.length = s.length + 1) :
    appendLoop tabs s (done ++ skip ++ rest) done.length =
      some ((done ++ (s.map (blank tabs) ++ [0])) ++ rest, (done ++ (s.map (blank tabs) ++ [0])).length) := by
  induction s generalizing done skip with
  | nil =>
    obtain ⟨x, rfl⟩ : ∃ x, skip = [x] := List.length_eq_one_iff.1 h
    unfold appendLoop
    rw [show done ++ [x] ++ rest = done ++ x :: rest by simp, put_eq]
    simp
  | cons c s ih =>
    obtain ⟨x, skip, rfl⟩ : ∃ x s, skip = x :: s := by cases skip with | nil => simp at h | cons x s => exact ⟨x, s, rfl⟩
    simp only [List.mem_cons, not_or] at hs
    unfold appendLoop
    rw [if_neg (Ne.symm hs.1)]
    simp only
    rw [show done ++ x :: skip ++ rest = done ++ x :: (skip ++ rest) by simp, put_eq]
    simp only [Option.bind_some]
    have := ih (done ++ [blank tabs c]) skip hs.2 (by simpa using h)
    rw [← List.append_assoc]
    unfold blank at this ⊢
    rw [this]
    simp

theorem strlen_eq {s : List Nat} (h : 0 ∉ s) : strlen s = s.length := by
  unfold strlen
  induction s with
  | nil => rfl
  | cons c s ih =>
    simp only [List.mem_cons, not_or] at h
    rw [List.takeWhile_cons_of_pos (by simpa using Ne.symm h.1), List.length_cons, ih h.2, List.length_cons]

/-- The bytes of a packed match. -/
def packed (debug : Bool) (m : Match) : List Nat :=
  (m.text.getD []).map (blank false) ++ [0] ++ [m.type % 256, m.type / 256 % 256, m.appendChar, m.flags] ++ (if debug then [58, 76, 65, 58] else []) ++
    ((m.display.getD []).map (blank false) ++ [0]) ++ ((m.description.getD []).map (blank false) ++ [0])

theorem getD_clean {s : Option (List Nat)} (h : ∀ l, s = some l → 0 ∉ l) : 0 ∉ s.getD [] := by
  cases s with
  | none => simp
  | some l => exact h l rfl

theorem size_eq (debug : Bool) {m : Match} (hs : Spec.Strings m) :
    calcPackedSize debug m.text m.display m.description = (packed debug m).length := by
  have h1 := hs m.text (by simp)
  have h2 := hs m.display (by simp)
  have h3 := hs m.description (by simp)
  have key : ∀ (o : Option (List Nat)) (n : Nat), (∀ l, o = some l → 0 ∉ l) → addLen n o = n + (o.getD []).length := by
    intro o n ho
    cases o with
    | none => rfl
    | some s => unfold addLen; simp only [Option.getD_some]; rw [strlen_eq (ho s rfl)]
  unfold calcPackedSize packed
  simp only
  rw [key _ _ h3, key _ _ h2, key _ _ h1]
  cases debug <;> simp <;> omega

theorem empty_iff {s : Option (List Nat)} (h : ∀ l, s = some l → 0 ∉ l) : empty s = true ↔ s = some [] := by
  unfold empty
  cases s with
  | none => simp
  | some l =>
    cases l with
    | nil => simp
    | cons c l =>
      have := h _ rfl
      simp only [List.mem_cons, not_or] at this
      simp only [List.headD_cons, beq_iff_eq, Option.some.injEq, reduceCtorEq, iff_false]
      exact Ne.symm this.1

theorem split_at (l : List Nat) (n : Nat) (h : n ≤ l.length) : ∃ a b, l = a ++ b ∧ a.length = n := ⟨l.take n, l.drop n, by simp, by simp; omega⟩

/-- Packing fills the buffer. -/
theorem pack_eq (debug : Bool) {m : Match} (hs : Spec.Strings m) (hp : Spec.Packable m) {buf : List Nat} (hb : buf.length = (packed debug m).length) :
    packMatch debug buf m = some (packed debug m, buf.length, true) := by
  have h1 := hs m.text (by simp)
  have h2 := hs m.display (by simp)
  have h3 := hs m.description (by simp)
  have e1 : empty m.text = false := Bool.eq_false_iff.2 fun h => hp.1 ((empty_iff h1).1 h)
  have e2 : empty m.display = false := Bool.eq_false_iff.2 fun h => hp.2 ((empty_iff h2).1 h)
  unfold packed at hb
  simp only [List.length_append, List.length_map, List.length_cons, List.length_nil] at hb
  obtain ⟨b1, r1, rfl, hb1⟩ := split_at buf ((m.text.getD []).length + 1) (by omega)
  simp only [List.length_append] at hb
  obtain ⟨b2, r2, rfl, hb2⟩ := split_at r1 4 (by omega)
  simp only [List.length_append] at hb
  obtain ⟨b3, r3, rfl, hb3⟩ := split_at r2 (if debug then [58, 76, 65, 58] else ([] : List Nat)).length (by omega)
  simp only [List.length_append] at hb
  obtain ⟨b4, r4, rfl, hb4⟩ := split_at r3 ((m.display.getD []).length + 1) (by omega)
  simp only [List.length_append] at hb
  unfold packMatch
  rw [e1, e2]
  simp only [Bool.false_eq_true, if_false, Option.bind_eq_bind, Option.pure_def]
  unfold appendString
  have s1 := appendLoop_eq false (m.text.getD []) [] b1 (b2 ++ (b3 ++ (b4 ++ r4))) (getD_clean h1) hb1
  simp only [List.nil_append, List.length_nil] at s1
  rw [s1]
  simp only [Option.bind_some]
  obtain ⟨d1, hd1⟩ : ∃ d, d = (m.text.getD []).map (blank false) ++ [0] := ⟨_, rfl⟩
  rw [← hd1]
  have s2 := putAll_eq [m.type % 256, m.type / 256 % 256, m.appendChar, m.flags] d1 b2 (b3 ++ (b4 ++ r4)) hb2
  rw [List.append_assoc] at s2
  rw [s2]
  simp only [Option.bind_some]
  obtain ⟨d2, hd2⟩ : ∃ d, d = d1 ++ [m.type % 256, m.type / 256 % 256, m.appendChar, m.flags] := ⟨_, rfl⟩
  rw [← hd2]
  have s3 := putAll_eq (if debug then [58, 76, 65, 58] else []) d2 b3 (b4 ++ r4) hb3
  rw [List.append_assoc] at s3
  rw [s3]
  simp only [Option.bind_some]
  obtain ⟨d3, hd3⟩ : ∃ d, d = d2 ++ (if debug then [58, 76, 65, 58] else []) := ⟨_, rfl⟩
  rw [← hd3]
  have s4 := appendLoop_eq false (m.display.getD []) d3 b4 r4 (getD_clean h2) hb4
  rw [List.append_assoc] at s4
  rw [s4]
  simp only [Option.bind_some]
  obtain ⟨d4, hd4⟩ : ∃ d, d = d3 ++ ((m.display.getD []).map (blank false) ++ [0]) := ⟨_, rfl⟩
  rw [← hd4]
  have s5 := appendLoop_eq false (m.description.getD []) d4 r4 [] (getD_clean h3) (by omega)
  simp only [List.append_nil] at s5
  rw [s5]
  simp only [Option.bind_some, Option.some.injEq, Prod.mk.injEq, and_true]
  subst hd4 hd3 hd2 hd1
  refine ⟨rfl, ?_⟩
  simp only [List.length_append, List.length_map, List.length_cons, List.length_nil, hb1, hb2, hb3, hb4]
  omega

theorem strlenAt_eq (s rest : List Nat) (h : 0 ∉ s) : strlenAt (s ++ 0 :: rest) = some s.length := by
  induction s with
  | nil => rfl
  | cons c s ih =>
    simp only [List.mem_cons, not_or] at h
    rw [List.cons_append, strlenAt, if_neg (Ne.symm h.1), ih h.2]
    rfl

theorem map_clean {tabs : Bool} {s : List Nat} (h : 0 ∉ s) : 0 ∉ s.map (blank tabs) := by
  intro hm
  obtain ⟨c, hc, e⟩ := List.mem_map.1 hm
  exact blank_ne (fun h0 => h (h0 ▸ hc)) e

theorem oneLine_map (s : List Nat) : Spec.OneLine s (s.map (blank false)) := by
  refine ⟨by simp, fun i c hc => ?_⟩
  rw [List.getElem?_map, hc]
  simp only [Option.map_some, Option.some.injEq]
  unfold blank
  by_cases h9 : c = 9 <;> by_cases h10 : c = 10 <;> by_cases h13 : c = 13 <;> simp [h9, h10, h13]

theorem readString_eq (a s rest : List Nat) (h : 0 ∉ s) : readString (a ++ (s ++ 0 :: rest)) a.length = some s := by
  unfold readString
  rw [if_neg (by simp), List.drop_left, strlenAt_eq s rest h]
  simp

/-- Where the strings begin. -/
def displayAt (debug : Bool) (m : Match) : Nat := (m.text.getD []).length + (if debug then 9 else 5)
def descriptionAt (debug : Bool) (m : Match) : Nat := (m.text.getD []).length + (m.display.getD []).length + (if debug then 10 else 6)

theorem unpack_eq (debug : Bool) {m : Match} (hs : Spec.Strings m) (hf : Spec.Fields m) :
    unpack debug (packed debug m) =
      some { type := m.type, appendChar := m.appendChar, flags := m.flags, displayOffset := displayAt debug m % 65536
             descriptionOffset := descriptionAt debug m % 65536 } := by
  have h1 := map_clean (tabs := false) (getD_clean (hs m.text (by simp)))
  have h2 := map_clean (tabs := false) (getD_clean (hs m.display (by simp)))
  obtain ⟨t, ht⟩ : ∃ t, t = (m.text.getD []).map (blank false) := ⟨_, rfl⟩
  obtain ⟨d, hd⟩ : ∃ t, t = (m.display.getD []).map (blank false) := ⟨_, rfl⟩
  obtain ⟨q, hq⟩ : ∃ t, t = (m.description.getD []).map (blank false) := ⟨_, rfl⟩
  have lt : (m.text.getD []).length = t.length := by rw [ht, List.length_map]
  have ld : (m.display.getD []).length = d.length := by rw [hd, List.length_map]
  have htype : m.type % 256 ||| (m.type / 256 % 256) <<< 8 = m.type := by
    have h1 : m.type / 256 % 256 = m.type / 256 := Nat.mod_eq_of_lt (by have := hf.1; omega)
    rw [h1, Nat.or_comm, ← Nat.shiftLeft_add_eq_or_of_lt (by omega : m.type % 256 < 2 ^ 8), Nat.shiftLeft_eq]
    omega
  rw [← ht] at h1
  rw [← hd] at h2
  unfold unpack packed displayAt descriptionAt
  rw [← ht, ← hd, ← hq, lt, ld]
  have hz : t ++ [0] ++ [m.type % 256, m.type / 256 % 256, m.appendChar, m.flags] ++ (if debug then [58, 76, 65, 58] else []) ++ (d ++ [0]) ++ (q ++ [0]) =
      t ++ 0 :: m.type % 256 :: m.type / 256 % 256 :: m.appendChar :: m.flags :: ((if debug then [58, 76, 65, 58] else []) ++ (d ++ 0 :: (q ++ [0]))) := by simp
  rw [hz, strlenAt_eq t _ h1]
  have g : ∀ k, (t ++ 0 :: m.type % 256 :: m.type / 256 % 256 :: m.appendChar :: m.flags :: ((if debug then [58, 76, 65, 58] else []) ++ (d ++ 0 :: (q ++ [0]))))[t.length + 1 + k]? =
      (m.type % 256 :: m.type / 256 % 256 :: m.appendChar :: m.flags :: ((if debug then [58, 76, 65, 58] else []) ++ (d ++ 0 :: (q ++ [0]))))[k]? := by
    intro k
    rw [List.getElem?_append_right (by omega), show t.length + 1 + k - t.length = k + 1 by omega, List.getElem?_cons_succ]
  have g0 := g 0
  rw [Nat.add_zero] at g0
  have hdrop : (t ++ 0 :: m.type % 256 :: m.type / 256 % 256 :: m.appendChar :: m.flags :: ((if debug then [58, 76, 65, 58] else []) ++ (d ++ 0 :: (q ++ [0])))).drop
      (if debug = true then t.length + 1 + 4 + 4 else t.length + 1 + 4) = d ++ 0 :: (q ++ [0]) := by
    cases debug with
    | false =>
      simp only [Bool.false_eq_true, if_false, List.nil_append]
      rw [show t.length + 1 + 4 = t.length + 5 by omega, ← List.drop_drop, List.drop_left]
      rfl
    | true =>
      simp only [if_true]
      rw [show t.length + 1 + 4 + 4 = t.length + 9 by omega, ← List.drop_drop, List.drop_left]
      rfl
  simp only [Option.bind_eq_bind, Option.bind_some, Option.pure_def, g, g0, List.getElem?_cons_zero, List.getElem?_cons_succ, hdrop, strlenAt_eq d _ h2,
    Option.some.injEq, Extra.mk.injEq, htype, and_true]
  cases debug <;> simp <;> omega

end Clink.Lookaside
