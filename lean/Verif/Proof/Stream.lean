import Verif.Spec.Stream

/-! Writing to a session stream. -/

namespace Clink.Stream

open Spec

def Data.file (d : Data) : List Nat := d.mem.take d.size

structure Data.Inv (k : Cfg) (d : Data) : Prop where
  size : d.size < d.mem.length ∨ d.mem = [] ∧ d.size = 0
  max : d.mem.length ≤ k.max

/-- There is a NUL behind the end. -/
def Data.Term (d : Data) : Prop := d.size = 0 ∨ d.mem[d.size]? = some 0

variable {k : Cfg} {d : Data}

theorem Data.Inv.file (h : d.Inv k) : d.file.length = d.size := by
  unfold Data.file
  rcases h.size with h | ⟨h1, h2⟩
  · simp; omega
  · simp [h1, h2]

theorem room_go (hk : k.Ok) (h : d.Inv k) (n : Nat) :
    (d.room k n).Inv k ∧ (d.room k n).size = d.size ∧ min n k.max ≤ (d.room k n).mem.length ∧ d.mem.length ≤ (d.room k n).mem.length ∧ (d.room k n).mem.take d.mem.length = d.mem := by
  have hm := h.max
  unfold Data.room
  split
  · rename_i hn
    dsimp only
    generalize hc : min (if max k.buf (d.mem.length * 3 / 2) < n then n * 3 / 2 else max k.buf (d.mem.length * 3 / 2)) k.max = c
    have h1 : d.mem.length ≤ c ∧ min n k.max ≤ c ∧ c ≤ k.max ∧ 0 < c := by
      have := hk.buf
      have := hk.max
      subst hc
      split <;> omega
    obtain ⟨h1, h2, h3, h4⟩ := h1
    have hl : (d.mem.take c ++ (List.range (c - d.mem.length)).map fun i => k.junk (d.mem.length + i)).length = c := by simp; omega
    refine ⟨⟨.inl ?_, by rw [hl]; exact h3⟩, rfl, by rw [hl]; exact h2, by rw [hl]; exact h1, ?_⟩
    · rw [hl]
      rcases h.size with h | ⟨-, h⟩ <;> dsimp only <;> omega
    · rw [List.take_of_length_le h1, List.take_left]
  · rename_i hn
    exact ⟨h, rfl, by omega, Nat.le_refl _, List.take_length⟩

theorem room_file (hk : k.Ok) (h : d.Inv k) (n : Nat) : (d.room k n).file = d.file := by
  obtain ⟨-, h2, -, h4, h5⟩ := room_go hk h n
  unfold Data.file
  rw [h2]
  have : d.size ≤ d.mem.length := by rcases h.size with h | ⟨-, h⟩ <;> omega
  rw [← h5, List.take_take, Nat.min_eq_left this]

theorem room_term (hk : k.Ok) (h : d.Inv k) (n : Nat) (ht : d.Term) : (d.room k n).Term := by
  obtain ⟨-, h2, -, h4, h5⟩ := room_go hk h n
  unfold Data.Term at ht ⊢
  rw [h2]
  rcases ht with ht | ht
  · exact .inl ht
  · right
    obtain ⟨hl, -⟩ := List.getElem?_eq_some_iff.1 ht
    rw [← h5, List.getElem?_take_of_lt hl] at ht
    exact ht

theorem write_go (hk : k.Ok) (h : d.Inv k) (off : Nat) (b : List Nat) :
    (d.write k off b).1.Inv k ∧ (d.write k off b).2.2 = min b.length (k.max - 1 - off) ∧ (d.write k off b).2.1 = off + min b.length (k.max - 1 - off) ∧
      Puts d.file off (b.take (k.max - 1 - off)) (d.write k off b).1.file ∧ d.size ≤ (d.write k off b).1.size ∧
      (d.Term ∨ d.size < (d.write k off b).1.size → (d.write k off b).1.Term) := by
  obtain ⟨i1, i2, i3, i4, i5⟩ := room_go hk h (off + b.length + 1)
  have i6 := room_file hk h (off + b.length + 1)
  have i7 := room_term hk h (off + b.length + 1)
  rw [← i6, ← i2]
  have i8 : d.Term ∨ (d.room k (off + b.length + 1)).size < (d.write k off b).1.size →
      (d.room k (off + b.length + 1)).Term ∨ (d.room k (off + b.length + 1)).size < (d.write k off b).1.size := fun h => h.imp i7 id
  suffices hs : (d.write k off b).1.Inv k ∧ (d.write k off b).2.2 = min b.length (k.max - 1 - off) ∧ (d.write k off b).2.1 = off + min b.length (k.max - 1 - off) ∧
      Puts (d.room k (off + b.length + 1)).file off (b.take (k.max - 1 - off)) (d.write k off b).1.file ∧ (d.room k (off + b.length + 1)).size ≤ (d.write k off b).1.size ∧
      ((d.room k (off + b.length + 1)).Term ∨ (d.room k (off + b.length + 1)).size < (d.write k off b).1.size → (d.write k off b).1.Term) by
    obtain ⟨a1, a2, a3, a4, a5, a6⟩ := hs
    exact ⟨a1, a2, a3, a4, a5, fun h => a6 (i8 h)⟩
  clear i8 i7 i6 i5 i4 i2
  unfold Data.write
  dsimp only
  generalize d.room k (off + b.length + 1) = e at i1 i3 ⊢
  have hm := i1.max
  have hlen := i1.file
  have hb := hk.buf
  have hbm := hk.max
  split
  · rename_i hu
    have : min b.length (k.max - 1 - off) = 0 := by omega
    rw [this]
    refine ⟨i1, rfl, rfl, ?_, Nat.le_refl _, fun h => h.elim id fun h => absurd h (Nat.lt_irrefl _)⟩
    have : b.take (k.max - 1 - off) = [] := by
      apply List.eq_nil_of_length_eq_zero
      rw [List.length_take]
      omega
    rw [this]
    exact .nothing rfl
  · rename_i hu
    have hn : min b.length (e.mem.length - 1 - off) = min b.length (k.max - 1 - off) := by omega
    rw [hn]
    generalize hN : min b.length (k.max - 1 - off) = N
    have hT : b.take (k.max - 1 - off) = b.take N := by
      rw [← hN]
      apply List.ext_getElem?
      intro i
      simp only [List.getElem?_take]
      split
      · split
        · rfl
        · rw [List.getElem?_eq_none (by omega)]
      · rw [if_neg (by omega)]
    rw [hT]
    have hbl : (b.take N).length = N := by rw [List.length_take]; omega
    generalize b.take N = c at hbl
    have hsz : e.size < e.mem.length := by
      rcases i1.size with h | ⟨h1, h2⟩
      · exact h
      · rw [h1] at hu; simp at hu
    have hoff : off + N < e.mem.length := by omega
    have hl1 : (splice e.mem off c).length = e.mem.length := by
      unfold splice
      simp only [List.length_append, List.length_take, List.length_drop]
      omega
    have hl2 : (splice (splice e.mem off c) (off + N) [0]).length = e.mem.length := by
      rw [splice]
      simp only [List.length_append, List.length_take, List.length_drop, hl1, List.length_singleton]
      omega
    have hfile : ∀ m, (splice e.mem off c).take m = if m ≤ off then e.mem.take m else if m ≤ off + N then e.mem.take off ++ c.take (m - off) else
        e.mem.take off ++ c ++ (e.mem.take m).drop (off + N) := by
      intro m
      unfold splice
      apply List.ext_getElem?
      intro i
      repeat' split
      all_goals
        simp only [List.getElem?_append, List.getElem?_take, List.getElem?_drop, List.length_append, List.length_take, hbl]
        repeat' split
      all_goals first | rfl | omega | skip
      all_goals first
        | (congr 1; omega)
        | (rw [List.getElem?_eq_none (by omega)])
    have hf2 : (splice (splice e.mem off c) (off + N) [0]).take (off + N) = e.mem.take off ++ c := by
      rw [splice, List.append_assoc, List.take_append_of_le_length (by rw [List.length_take, hl1]; omega), List.take_take, Nat.min_self, hfile]
      by_cases hz : N = 0
      · rw [if_pos (by omega), hz, List.length_eq_zero_iff.1 (by omega : c.length = 0)]; simp
      · rw [if_neg (by omega), if_pos (by omega)]
        rw [show off + N - off = c.length by omega, List.take_length]
    split
    · rename_i hlt
      refine ⟨⟨.inl (by rw [hl2]; exact hoff), by rw [hl2]; exact hm⟩, rfl, rfl, ?_, by dsimp only; omega, fun _ => .inr ?_⟩
      · unfold Data.file
        dsimp only at hlt ⊢
        rw [hf2]
        by_cases ho : off ≤ e.size
        · have := Puts.at (f := e.mem.take e.size) (pos := off) (b := c) (by rw [List.length_take]; omega)
          rw [List.take_take, Nat.min_eq_left ho, List.drop_eq_nil_of_le (by rw [List.length_take]; omega), List.append_nil] at this
          exact this
        · have := Puts.behind (f := e.mem.take e.size) (pos := off) (b := c) (gap := (e.mem.take off).drop e.size) (by rw [List.length_take]; omega)
            (by simp only [List.length_take, List.length_drop]; omega)
          have he : e.mem.take e.size ++ (e.mem.take off).drop e.size = e.mem.take off := by
            have h1 := List.take_append_drop e.size (e.mem.take off)
            rw [List.take_take, Nat.min_eq_left (by omega)] at h1
            exact h1
          rw [he] at this
          exact this
      · dsimp only
        rw [splice, List.append_assoc, List.getElem?_append_right (by rw [List.length_take, hl1]; omega), List.length_take, hl1]
        rw [Nat.min_eq_left (by omega), Nat.sub_self]
        rfl
    · rename_i hlt
      refine ⟨⟨.inl (by rw [hl1]; exact hsz), by rw [hl1]; exact hm⟩, rfl, rfl, ?_, Nat.le_refl _, fun h => ?_⟩
      · unfold Data.file
        dsimp only
        have := Puts.at (f := e.mem.take e.size) (pos := off) (b := c) (by rw [List.length_take]; omega)
        rw [List.take_take, Nat.min_eq_left (by omega), hbl] at this
        have he : (splice e.mem off c).take e.size = e.mem.take off ++ c ++ (e.mem.take e.size).drop (off + N) := by
          rw [hfile]
          split
          · have : N = 0 := by omega
            have h2 : e.size = off := by omega
            rw [this, h2, List.length_eq_zero_iff.1 (by omega : c.length = 0)]
            simp
          · split
            · have h2 : e.size = off + N := by omega
              rw [show e.size - off = c.length by omega, List.take_length, List.drop_eq_nil_of_le (by rw [List.length_take]; omega), List.append_nil]
            · rfl
        rw [he]
        exact this
      · rcases h with h | h
        · rcases h with h | h
          · exact .inl h
          · right
            dsimp only
            unfold splice
            rw [List.getElem?_append_right (by simp only [List.length_append, List.length_take]; omega), List.getElem?_drop, ← h]
            congr 1
            simp only [List.length_append, List.length_take]
            omega
        · exact absurd h (Nat.lt_irrefl _)

theorem puts_puts {f f1 f2 a b : List Nat} {pos : Nat} (h1 : Puts f pos a f1) (h2 : Puts f1 (pos + a.length) b f2) : Puts f pos (a ++ b) f2 := by
  cases h1 with
  | «at» hp =>
    have hl : pos + a.length ≤ (f.take pos ++ a ++ f.drop (pos + a.length)).length := by simp only [List.length_append, List.length_take]; omega
    cases h2 with
    | «at» h2 =>
      have := Puts.at (b := a ++ b) hp
      have he : (f.take pos ++ a ++ f.drop (pos + a.length)).take (pos + a.length) ++ b ++ (f.take pos ++ a ++ f.drop (pos + a.length)).drop (pos + a.length + b.length) =
          f.take pos ++ (a ++ b) ++ f.drop (pos + (a ++ b).length) := by
        have h3 : (f.take pos ++ a).length = pos + a.length := by simp only [List.length_append, List.length_take]; omega
        rw [List.take_append_of_le_length (by omega), List.take_of_length_le (by omega)]
        rw [List.drop_append, List.drop_eq_nil_of_le (by omega), List.nil_append, List.drop_drop, h3, List.length_append]
        rw [List.append_assoc (f.take pos)]
        congr 2
        omega
      rw [he]
      exact this
    | behind h2 _ => omega
    | nothing h2 =>
      subst h2
      rw [List.append_nil]
      exact .at hp
  | @behind gap hp hg =>
    have hl : (f ++ gap ++ a).length = pos + a.length := by simp only [List.length_append]; omega
    cases h2 with
    | «at» h2 =>
      rw [List.take_of_length_le (by omega), List.drop_eq_nil_of_le (by omega), List.append_nil, List.append_assoc]
      exact .behind hp hg
    | behind h2 _ => omega
    | nothing h2 =>
      subst h2
      rw [List.append_nil]
      exact .behind hp hg
  | nothing h =>
    subst h
    simpa using h2

/-- What holds while a text is written: `E` is what has been asked for, `P` is how many bytes of the text that were, `acc` is pending. -/
structure Good (k : Cfg) (f0 : List Nat) (pos : Nat) (T : Prop) (E : List Nat) (P a : Nat) (d : Data) (off total : Nat) : Prop where
  inv : d.Inv k
  puts : Puts f0 pos (E.take (k.max - 1 - pos)) d.file
  off : off = pos + min E.length (k.max - 1 - pos)
  grows : f0.length ≤ d.size
  term : T ∨ f0.length < d.size → d.Term
  all : E.length ≤ k.max - 1 - pos ∧ total = P ∨ k.max - 1 - pos < E.length ∧ total < P + a

variable {f0 : List Nat} {pos : Nat} {T : Prop} {E : List Nat} {P a off total : Nat}

theorem good_write (hk : k.Ok) (h : Good k f0 pos T E P a d off total) (b : List Nat) :
    (d.write k off b).1.Inv k ∧ Puts f0 pos ((E ++ b).take (k.max - 1 - pos)) (d.write k off b).1.file ∧
      (d.write k off b).2.1 = pos + min (E ++ b).length (k.max - 1 - pos) ∧ f0.length ≤ (d.write k off b).1.size ∧
      (T ∨ f0.length < (d.write k off b).1.size → (d.write k off b).1.Term) ∧
      (d.write k off b).2.2 = min b.length (k.max - 1 - pos - E.length) := by
  obtain ⟨i1, i2, i3, i4, i5, i6⟩ := h
  obtain ⟨j1, j2, j3, j4, j5, j6⟩ := write_go hk i1 off b
  have hn : k.max - 1 - off = k.max - 1 - pos - E.length := by omega
  rw [hn] at j2 j3 j4
  refine ⟨j1, ?_, ?_, by omega, ?_, j2⟩
  · have := puts_puts i2 (b := b.take (k.max - 1 - pos - E.length)) (by
      rw [List.length_take, Nat.min_comm, ← i3]; exact j4)
    rw [← List.take_append] at this
    exact this
  · rw [j3, i3, List.length_append]; omega
  · rintro (hT | hT)
    · exact j6 (.inl (i5 (.inl hT)))
    · by_cases hs : d.size < (d.write k off b).1.size
      · exact j6 (.inr hs)
      · exact j6 (.inl (i5 (.inr (by omega))))

theorem good_text (hk : k.Ok) : ∀ (r acc : List Nat) (d : Data) (off total : Nat) (E : List Nat) (P : Nat), Good k f0 pos T E P acc.length d off total →
    Good k f0 pos T (E ++ acc ++ encode r) (P + acc.length + r.length) 0 (writeText k acc r d off total).1 (writeText k acc r d off total).2.1 (writeText k acc r d off total).2.2 := by
  have flush : ∀ (acc : List Nat) (d : Data) (off total : Nat) (E : List Nat) (P : Nat), Good k f0 pos T E P acc.length d off total →
      ∀ s, s = (if acc = [] then (d, off, total) else ((d.write k off acc).1, (d.write k off acc).2.1, total + (d.write k off acc).2.2)) →
      Good k f0 pos T (E ++ acc) (P + acc.length) 0 s.1 s.2.1 s.2.2 := by
    intro acc d off total E P h s hs
    split at hs
    · rename_i ha
      subst ha hs
      simpa using h
    · subst hs
      obtain ⟨j1, j2, j3, j4, j5, j6⟩ := good_write hk h acc
      refine ⟨j1, j2, j3, j4, j5, ?_⟩
      dsimp only
      rw [j6, List.length_append]
      have := h.all
      omega
  intro r
  induction r with
  | nil =>
    intro acc d off total E P h
    have := flush acc d off total E P h _ rfl
    unfold writeText
    simp only [encode, List.append_nil, List.length_nil, Nat.add_zero]
    split <;> simp_all
  | cons c r ih =>
    intro acc d off total E P h
    unfold writeText
    split
    · rename_i hc
      have g1 := flush acc d off total E P h _ rfl
      dsimp only
      generalize hs : (if acc = [] then (d, off, total) else ((d.write k off acc).1, (d.write k off acc).2.1, total + (d.write k off acc).2.2)) = s at g1 ⊢
      by_cases h10 : c = 10
      · rw [if_pos h10]
        dsimp only
        obtain ⟨j1, j2, j3, j4, j5, j6⟩ := good_write hk g1 [13]
        have g2 : Good k f0 pos T (E ++ acc ++ [13]) (P + acc.length) [c].length (s.1.write k s.2.1 [13]).1 (s.1.write k s.2.1 [13]).2.1 s.2.2 := by
          refine ⟨j1, j2, j3, j4, j5, ?_⟩
          have := g1.all
          simp only [List.length_append, List.length_singleton] at this ⊢
          omega
        have := ih _ _ _ _ _ _ g2
        rw [show E ++ acc ++ encode (c :: r) = E ++ acc ++ [13] ++ [c] ++ encode r by simp [encode, h10]]
        rw [show P + acc.length + (c :: r).length = P + acc.length + [c].length + r.length by simp; omega]
        exact this
      · rw [if_neg h10]
        have g2 : Good k f0 pos T (E ++ acc) (P + acc.length) [c].length s.1 s.2.1 s.2.2 := by
          obtain ⟨j1, j2, j3, j4, j5, j6⟩ := g1
          exact ⟨j1, j2, j3, j4, j5, by omega⟩
        have := ih _ _ _ _ _ _ g2
        rw [show E ++ acc ++ encode (c :: r) = E ++ acc ++ [c] ++ encode r by simp [encode, h10]]
        rw [show P + acc.length + (c :: r).length = P + acc.length + [c].length + r.length by simp; omega]
        exact this
    · rename_i hc
      have hc : c ≠ 10 := fun h => hc (.inl h)
      have := ih (acc ++ [c]) d off total E P (by
        obtain ⟨j1, j2, j3, j4, j5, j6⟩ := h
        refine ⟨j1, j2, j3, j4, j5, ?_⟩
        rw [List.length_append]
        omega)
      rw [show E ++ acc ++ encode (c :: r) = E ++ (acc ++ [c]) ++ encode r by simp [encode, hc]]
      rw [show P + acc.length + (c :: r).length = P + (acc ++ [c]).length + r.length by simp; omega]
      exact this

theorem encode_length : ∀ l : List Nat, l.length ≤ (encode l).length
  | [] => by simp
  | c :: r => by
    have := encode_length r
    unfold encode
    split <;> simp <;> omega

theorem encode_append : ∀ a b : List Nat, encode (a ++ b) = encode a ++ encode b
  | [], b => rfl
  | c :: r, b => by
    rw [List.cons_append, encode, encode, encode_append r b]
    split <;> simp

theorem enc_length (text : Bool) (l : List Nat) : l.length ≤ (enc text l).length := by
  unfold enc
  split
  · exact encode_length l
  · exact Nat.le_refl _

theorem enc_append (text : Bool) (a b : List Nat) : enc text (a ++ b) = enc text a ++ enc text b := by
  unfold enc
  split
  · exact encode_append a b
  · rfl

/-- How a stream and a file are related. -/
structure Rel (k : Cfg) (d : Data) (f : File) : Prop where
  inv : d.Inv k
  bytes : f.bytes = d.file
  term : f.cut = false → d.Term

theorem put_go (hk : k.Ok) {f : File} (h : Rel k d f) (x : Handle) (b : List Nat) :
    ∃ f', Writes k x.flags.text f x.off b f' (x.put k d (b.take k.max)).2.1 (decide ((x.put k d (b.take k.max)).2.2 = b.length)) ∧ Rel k (x.put k d (b.take k.max)).1 f' := by
  have hb := hk.buf
  have hbm := hk.max
  obtain ⟨h1, h2, h3⟩ := h
  have hlen : f.bytes.length = d.size := by rw [h2, h1.file]
  have hg : Good k f.bytes x.off (f.cut = false) (enc x.flags.text (b.take k.max)) (b.take k.max).length 0 (x.put k d (b.take k.max)).1 (x.put k d (b.take k.max)).2.1
      (x.put k d (b.take k.max)).2.2 := by
    have g0 : Good k f.bytes x.off (f.cut = false) [] 0 0 d x.off 0 := by
      refine ⟨h1, by simp [h2]; exact .nothing rfl, by simp, by omega, fun h => h.elim h3 fun h => by omega, .inl ⟨by simp, rfl⟩⟩
    unfold Handle.put enc
    split
    · have := good_text hk (b.take k.max) [] d x.off 0 [] 0 g0
      simpa using this
    · obtain ⟨j1, j2, j3, j4, j5, j6⟩ := good_write hk g0 (b.take k.max)
      simp only [List.nil_append, List.length_nil, Nat.sub_zero] at j2 j3 j6
      refine ⟨j1, j2, j3, j4, j5, ?_⟩
      rw [j6]
      omega
  obtain ⟨j1, j2, j3, j4, j5, j6⟩ := hg
  have hE : (enc x.flags.text (b.take k.max)).take (k.max - 1 - x.off) = (enc x.flags.text b).take (k.max - 1 - x.off) := by
    have h4 := enc_append x.flags.text (b.take k.max) (b.drop k.max)
    rw [List.take_append_drop] at h4
    rw [h4]
    by_cases hl : b.length ≤ k.max
    · rw [List.drop_eq_nil_of_le hl]
      have : enc x.flags.text [] = [] := by unfold enc; split <;> rfl
      rw [this, List.append_nil]
    · rw [List.take_append_of_le_length]
      have := enc_length x.flags.text (b.take k.max)
      rw [List.length_take] at this
      omega
  rw [hE] at j2
  have hok : decide ((x.put k d (b.take k.max)).2.2 = b.length) =
      decide (((enc x.flags.text b).take (k.max - 1 - x.off)).length = (enc x.flags.text b).length) := by
    rw [List.length_take]
    have h5 := enc_length x.flags.text b
    by_cases hl : b.length ≤ k.max
    · rw [List.take_of_length_le hl] at j6
      apply decide_eq_decide.2
      rw [List.take_of_length_le hl] at *
      omega
    · have : (b.take k.max).length = k.max := by rw [List.length_take]; omega
      rw [this] at j6
      rw [decide_eq_false (by omega), decide_eq_false (by omega)]
  refine ⟨_, by
    rw [hok, show (x.put k d (b.take k.max)).2.1 = x.off + ((enc x.flags.text b).take (k.max - 1 - x.off)).length from ?_]
    · exact .mk rfl j2
    · rw [j3, ← hE, List.length_take, Nat.min_comm], j1, rfl, ?_⟩
  intro hc
  apply j5
  dsimp only at hc
  simp only [Bool.and_eq_false_iff, decide_eq_false_iff_not, Nat.not_le, j1.file] at hc
  exact hc

theorem writeArgs_go (hk : k.Ok) (x : Handle) : ∀ (args : List (List Nat)) (d : Data) (off : Nat) (f : File), Rel k d f →
    ∃ f', WritesAll k x.flags f off args f' (writeArgs k x args d off).2.1 (writeArgs k x args d off).2.2 ∧ Rel k (writeArgs k x args d off).1 f'
  | [], d, off, f, h => ⟨f, .done, h⟩
  | b :: bs, d, off, f, h => by
    unfold writeArgs
    dsimp only
    have hs : (if x.flags.append = true then d.size else off) = (if x.flags.append = true then f.bytes.length else off) := by rw [h.bytes, h.inv.file]
    rw [hs]
    generalize hp : (if x.flags.append = true then f.bytes.length else off) = p
    obtain ⟨f1, h1, h2⟩ := put_go hk h { x with off := p } b
    split
    · rename_i hok
      rw [decide_eq_true hok] at h1
      obtain ⟨f2, h3, h4⟩ := writeArgs_go hk x bs _ ({ x with off := p }.put k d (b.take k.max)).2.1 f1 h2
      exact ⟨f2, .next (by rw [hp]; exact h1) h3, h4⟩
    · rename_i hok
      rw [decide_eq_false hok] at h1
      exact ⟨f1, .full (by rw [hp]; exact h1), h2⟩

end Clink.Stream
