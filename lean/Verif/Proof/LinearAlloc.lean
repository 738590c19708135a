import Verif.Spec.LinearAlloc
namespace Clink.LinearAlloc

/-- Representation invariant. -/
structure Inv (w : World) : Prop where
  ids : ∀ q ∈ w.a.pages, q.1 < w.a.fresh
  nodup : (w.a.pages.map (·.1)).Nodup
  big : ∀ q ∈ w.a.pages, 8 ≤ q.2.length
  empty : w.a.pages = [] → w.a.used = w.a.max
  head : ∀ h rest, w.a.pages = h :: rest → h.2.length = w.a.max ∧ 8 ≤ w.a.used ∧ w.a.used ≤ w.a.max
  inside : ∀ b ∈ w.blocks, 8 ≤ b.ptr.off ∧ 0 < b.size ∧ Inside w.a b
  below : ∀ h rest, w.a.pages = h :: rest → ∀ b ∈ w.blocks, b.ptr.page = h.1 → b.ptr.off + b.size ≤ w.a.used
  disj : w.blocks.Pairwise Disjoint

theorem setLink_len (link : Nat → Nat) (m : List Nat) (h : 8 ≤ m.length) : (setLink link m).length = m.length := by
  unfold setLink; simp; omega

theorem setLink_drop (link : Nat → Nat) (m : List Nat) (k : Nat) (hk : 8 ≤ k) :
    (setLink link m).drop k = m.drop k := by
  unfold setLink
  rw [List.drop_append]
  have : ((List.range 8).map link).drop k = [] := by
    rw [List.drop_eq_nil_iff]; simpa using hk
  rw [this]
  simp only [List.nil_append, List.length_map, List.length_range, List.drop_drop]
  congr 1; omega

theorem rawPage_len (junk : Nat → Nat) (n : Nat) : (rawPage junk n).length = n := by simp [rawPage]

theorem peek_mem {a : Alloc} {id : Nat} {m : List Nat} (hn : (a.pages.map (·.1)).Nodup)
    (h : (id, m) ∈ a.pages) (off n : Nat) (hle : off + n ≤ m.length) :
    peek a ⟨id, off⟩ n = some ((m.drop off).take n) := by
  have : a.pages.find? (fun q => q.1 = id) = some (id, m) := by
    generalize a.pages = l at *
    induction l with
    | nil => simp at h
    | cons q l ih =>
      rw [List.find?_cons]
      by_cases hq : q.1 = id
      · simp only [hq, decide_true, Option.some.injEq]
        rcases List.mem_cons.1 h with h | h
        · exact h.symm
        · simp only [List.map_cons, List.nodup_cons] at hn
          exact absurd (List.mem_map.2 ⟨_, h, rfl⟩) (by rw [← hq]; exact hn.1)
      · simp only [hq, decide_false]
        rcases List.mem_cons.1 h with h | h
        · subst h; exact absurd rfl hq
        · exact ih (by simp only [List.map_cons, List.nodup_cons] at hn; exact hn.2) h
  unfold peek
  simp only [this, hle, if_true]

/-- Pages keep their identity and, from byte 8 on, their contents. -/
def Keeps (a a' : Alloc) : Prop :=
  ∀ id m, (id, m) ∈ a.pages → ∃ m', (id, m') ∈ a'.pages ∧ m'.length = m.length ∧
    ∀ k, 8 ≤ k → m'.drop k = m.drop k

theorem Keeps.refl (a : Alloc) : Keeps a a := fun _ m h => ⟨m, h, rfl, fun _ _ => rfl⟩
theorem Keeps.trans {a b c : Alloc} (h1 : Keeps a b) (h2 : Keeps b c) : Keeps a c := by
  intro id m h
  obtain ⟨m1, x1, x2, x3⟩ := h1 id m h
  obtain ⟨m2, y1, y2, y3⟩ := h2 id m1 x1
  exact ⟨m2, y1, by omega, fun k hk => by rw [y3 k hk, x3 k hk]⟩

theorem keeps_peek {a a' : Alloc} (h : Keeps a a') (hn : (a.pages.map (·.1)).Nodup)
    (hn' : (a'.pages.map (·.1)).Nodup) (b : Block) (hi : Inside a b) (h8 : 8 ≤ b.ptr.off) :
    peek a' b.ptr b.size = peek a b.ptr b.size := by
  obtain ⟨m, hm, hle⟩ := hi
  obtain ⟨m', hm', hl, hd⟩ := h _ _ hm
  have e1 := peek_mem hn hm b.ptr.off b.size hle
  have e2 := peek_mem hn' hm' b.ptr.off b.size (by omega)
  rw [hd _ h8] at e2
  exact e2.trans e1.symm

theorem keeps_inside {a a' : Alloc} (h : Keeps a a') {b : Block} (hi : Inside a b) : Inside a' b := by
  obtain ⟨m, hm, hle⟩ := hi
  obtain ⟨m', hm', hl, -⟩ := h _ _ hm
  exact ⟨m', hm', by omega⟩

theorem newPage_inv {junk link ok} {w : World} (h : Inv w) {a'} (hp : newPage junk link ok w.a = some a') :
    Inv { w with a := a' } ∧ Keeps w.a a' ∧ a'.pages ≠ [] ∧ a'.used = 8 ∧ a'.max = w.a.max ∧
      (∀ hd rest, a'.pages = hd :: rest → hd.1 = w.a.fresh) := by
  unfold newPage at hp
  split at hp
  · simp at hp
  · rename_i h8
    split at hp
    · simp at hp
    · simp only [Option.some.injEq] at hp
      subst hp
      have hlen : (setLink link (rawPage junk w.a.max)).length = w.a.max := by
        rw [setLink_len _ _ (by rw [rawPage_len]; omega), rawPage_len]
      have hk : Keeps w.a { w.a with
          pages := (w.a.fresh, setLink link (rawPage junk w.a.max)) :: w.a.pages, used := 8, fresh := w.a.fresh + 1 } :=
        fun id m hm => ⟨m, List.mem_cons_of_mem _ hm, rfl, fun _ _ => rfl⟩
      refine ⟨⟨?_, ?_, ?_, by simp, ?_, ?_, ?_, h.disj⟩, hk, by simp, rfl, rfl, ?_⟩
      · intro q hq
        rcases List.mem_cons.1 hq with rfl | hq
        · simp
        · have := h.ids q hq; simp; omega
      · simp only [List.map_cons, List.nodup_cons]
        refine ⟨?_, h.nodup⟩
        intro hc
        obtain ⟨q, hq, e⟩ := List.mem_map.1 hc
        have := h.ids q hq; omega
      · intro q hq
        rcases List.mem_cons.1 hq with rfl | hq
        · simp only; omega
        · exact h.big q hq
      · intro hd rest he
        simp only [List.cons.injEq] at he
        obtain ⟨rfl, -⟩ := he
        exact ⟨hlen, by simp, by simp only; omega⟩
      · intro b hb
        obtain ⟨x, y, z⟩ := h.inside b hb
        exact ⟨x, y, keeps_inside hk z⟩
      · intro hd rest he b hb hpg
        simp only [List.cons.injEq] at he
        obtain ⟨rfl, -⟩ := he
        obtain ⟨-, -, m, hm, -⟩ := h.inside b hb
        have := h.ids _ hm
        simp only at hpg this
        omega
      · intro hd rest he
        simp only [List.cons.injEq] at he
        obtain ⟨rfl, -⟩ := he
        rfl

/-- Everything about `alloc`. -/
theorem alloc_inv {junk link ok1 ok2} {w : World} (h : Inv w) (n : Nat) :
    (∀ a', alloc junk link ok1 ok2 w.a n = (a', none) → Inv { w with a := a' } ∧ Keeps w.a a') ∧
    (∀ a' p, alloc junk link ok1 ok2 w.a n = (a', some p) →
      Inv { a := a', blocks := ⟨p, n⟩ :: w.blocks } ∧ Keeps w.a a') := by
  unfold alloc
  by_cases h0 : n = 0
  · rw [if_pos h0]
    refine ⟨?_, by simp⟩
    intro a' e
    simp only [Prod.mk.injEq, and_true] at e
    subst e
    exact ⟨h, Keeps.refl _⟩
  rw [if_neg h0]
  by_cases hov : oversized w.a n = true
  · rw [if_pos hov]
    -- the state after making sure there is a head page
    have key : ∀ a1, (if w.a.pages = [] then newPage junk link ok1 w.a else some w.a) = some a1 →
        Inv { w with a := a1 } ∧ Keeps w.a a1 := by
      intro a1 e
      split at e
      · have := newPage_inv h e; exact ⟨this.1, this.2.1⟩
      · simp only [Option.some.injEq] at e; subst e; exact ⟨h, Keeps.refl _⟩
    split
    · refine ⟨?_, by simp⟩
      intro a' e
      simp only [Prod.mk.injEq, and_true] at e
      subst e
      exact ⟨h, Keeps.refl _⟩
    · rename_i a1 ha1
      obtain ⟨i1, k1⟩ := key a1 ha1
      split
      · refine ⟨?_, by simp⟩
        intro a' e
        simp only [Prod.mk.injEq, and_true] at e
        subst e
        exact ⟨i1, k1⟩
      · split
        · refine ⟨?_, by simp⟩
          intro a' e
          simp only [Prod.mk.injEq, and_true] at e
          subst e
          exact ⟨i1, k1⟩
        · rename_i hid hm rest hpg
          refine ⟨by simp, ?_⟩
          intro a' p e
          simp only [Prod.mk.injEq, Option.some.injEq] at e
          obtain ⟨rfl, rfl⟩ := e
          have hnd := i1.nodup
          have hids := i1.ids
          have hbig := i1.big
          have hhead := i1.head _ _ hpg
          simp only [hpg] at hnd hids hbig
          have hm8 : 8 ≤ hm.length := hbig (hid, hm) (by simp)
          have hl1 : (setLink link hm).length = hm.length := setLink_len _ _ hm8
          have hl2 : (setLink link (rawPage junk (n + 8))).length = n + 8 := by
            rw [setLink_len _ _ (by rw [rawPage_len]; omega), rawPage_len]
          have k2 : Keeps a1 { a1 with
              pages := (hid, setLink link hm) :: (a1.fresh, setLink link (rawPage junk (n + 8))) :: rest
              fresh := a1.fresh + 1 } := by
            intro id m hmm
            rw [hpg] at hmm
            rcases List.mem_cons.1 hmm with e | hmm
            · simp only [Prod.mk.injEq] at e
              obtain ⟨rfl, rfl⟩ := e
              exact ⟨setLink link m, by simp, hl1, fun k hk => setLink_drop link m k hk⟩
            · exact ⟨m, by simp [hmm], rfl, fun _ _ => rfl⟩
          refine ⟨⟨?_, ?_, ?_, by simp, ?_, ?_, ?_, ?_⟩, k1.trans k2⟩
          · intro q hq
            simp only [List.mem_cons] at hq
            rcases hq with rfl | rfl | hq
            · have := hids (hid, hm) (by simp); simp only at *; omega
            · simp
            · have := hids q (by simp [hq]); simp only; omega
          · simp only [List.map_cons, List.nodup_cons, List.mem_cons, not_or] at hnd ⊢
            refine ⟨⟨?_, hnd.1⟩, ?_, hnd.2⟩
            · have := hids (hid, hm) (by simp); simp only at this; omega
            · intro hc
              obtain ⟨q, hq, e⟩ := List.mem_map.1 hc
              have := hids q (by simp [hq]); omega
          · intro q hq
            simp only [List.mem_cons] at hq
            rcases hq with rfl | rfl | hq
            · simp only; omega
            · simp only; omega
            · exact hbig q (by simp [hq])
          · intro hd r he
            simp only [List.cons.injEq] at he
            obtain ⟨rfl, -⟩ := he
            simp only at hhead ⊢
            exact ⟨by omega, hhead.2.1, hhead.2.2⟩
          · intro b hb
            simp only [List.mem_cons] at hb
            rcases hb with rfl | hb
            · refine ⟨by simp, by simp only; omega, ⟨setLink link (rawPage junk (n + 8)), by simp, by simp only; omega⟩⟩
            · obtain ⟨x, y, z⟩ := i1.inside b hb
              exact ⟨x, y, keeps_inside k2 z⟩
          · intro hd r he b hb hpgb
            simp only [List.cons.injEq] at he
            obtain ⟨rfl, -⟩ := he
            simp only [List.mem_cons] at hb
            rcases hb with rfl | hb
            · have := hids (hid, hm) (by simp); simp only at this hpgb; omega
            · exact i1.below _ _ hpg b hb hpgb
          · rw [List.pairwise_cons]
            refine ⟨?_, i1.disj⟩
            intro b hb
            left
            obtain ⟨-, -, m, hmm, -⟩ := i1.inside b hb
            have := i1.ids _ hmm
            simp only at this ⊢
            omega
  · rw [if_neg hov]
    have hov' : n + 8 ≤ w.a.max := by simpa [oversized] using hov
    have key : ∀ a1, (if fits w.a n = true then some w.a else newPage junk link ok1 w.a) = some a1 →
        Inv { w with a := a1 } ∧ Keeps w.a a1 ∧ (a1.pages ≠ [] → a1.used + n ≤ a1.max) := by
      intro a1 e
      split at e
      · rename_i hf
        simp only [Option.some.injEq] at e; subst e
        exact ⟨h, Keeps.refl _, fun _ => by simpa [fits] using hf⟩
      · obtain ⟨x1, x2, x3, x4, x5, -⟩ := newPage_inv h e
        exact ⟨x1, x2, fun _ => by omega⟩
    split
    · refine ⟨?_, by simp⟩
      intro a' e
      simp only [Prod.mk.injEq, and_true] at e
      subst e
      exact ⟨h, Keeps.refl _⟩
    · rename_i a1 ha1
      obtain ⟨i1, k1, hfit⟩ := key a1 ha1
      split
      · refine ⟨?_, by simp⟩
        intro a' e
        simp only [Prod.mk.injEq, and_true] at e
        subst e
        exact ⟨i1, k1⟩
      · rename_i hid hm rest hpg
        refine ⟨by simp, ?_⟩
        intro a' p e
        simp only [Prod.mk.injEq, Option.some.injEq] at e
        obtain ⟨rfl, rfl⟩ := e
        have hf := hfit (by rw [hpg]; simp)
        have hhead := i1.head _ _ hpg
        simp only at hhead
        have k2 : Keeps a1 { a1 with used := a1.used + n } := fun id m hmm => ⟨m, hmm, rfl, fun _ _ => rfl⟩
        refine ⟨⟨i1.ids, i1.nodup, i1.big, ?_, ?_, ?_, ?_, ?_⟩, k1.trans k2⟩
        · intro he; rw [hpg] at he; simp at he
        · intro hd r he
          have := i1.head hd r he
          simp only at this ⊢
          omega
        · intro b hb
          simp only [List.mem_cons] at hb
          rcases hb with rfl | hb
          · refine ⟨by simp only; omega, by simp only; omega, ⟨hm, ?_, ?_⟩⟩
            · simp [hpg]
            · simp only; omega
          · obtain ⟨x, y, z⟩ := i1.inside b hb
            exact ⟨x, y, keeps_inside k2 z⟩
        · intro hd r he b hb hpgb
          simp only [List.mem_cons] at hb
          rcases hb with rfl | hb
          · simp
          · have := i1.below hd r he b hb hpgb
            simp only at this ⊢; omega
        · rw [List.pairwise_cons]
          refine ⟨?_, i1.disj⟩
          intro b hb
          by_cases hpgb : b.ptr.page = hid
          · right; right
            have := i1.below _ _ hpg b hb hpgb
            simpa using this
          · left; exact fun hh => hpgb hh.symm

/-- Effect of a write inside a page. -/
theorem poke_inv {w : World} (h : Inv w) (b : Block) (hb : b ∈ w.blocks) (off : Nat) (bs : List Nat)
    (hle : off + bs.length ≤ b.size) :
    ∃ a', poke w.a ⟨b.ptr.page, b.ptr.off + off⟩ bs = some a' ∧ Inv { w with a := a' } ∧
      peek a' ⟨b.ptr.page, b.ptr.off + off⟩ bs.length = some bs ∧
      ∀ c ∈ w.blocks, Disjoint b c → peek a' c.ptr c.size = peek w.a c.ptr c.size := by
  obtain ⟨h8, hpos, m, hm, hml⟩ := h.inside b hb
  unfold poke
  rw [if_pos ⟨_, hm, rfl, by simp only; omega⟩]
  refine ⟨_, rfl, ?_⟩
  generalize hf : (fun q : Nat × List Nat =>
      if q.1 = b.ptr.page then (q.1, q.2.take (b.ptr.off + off) ++ bs ++ q.2.drop (b.ptr.off + off + bs.length)) else q) = f
  have hf1 : ∀ q, (f q).1 = q.1 := by intro q; rw [← hf]; simp only; split <;> rfl
  have uniq : ∀ q ∈ w.a.pages, q.1 = b.ptr.page → q = (b.ptr.page, m) := by
    intro q hq he
    have := h.nodup
    generalize w.a.pages = l at *
    clear h hf hf1
    induction l with
    | nil => simp at hq
    | cons x l ih =>
      simp only [List.map_cons, List.nodup_cons] at this
      simp only [List.mem_cons] at hq hm
      rcases hq with rfl | hq <;> rcases hm with hm | hm
      · exact hm.symm
      · exact absurd (List.mem_map.2 ⟨_, hm, rfl⟩) (by rw [← he]; exact this.1)
      · subst hm; exact absurd (List.mem_map.2 ⟨q, hq, he⟩) this.1
      · exact ih hm hq this.2
  have hf2 : ∀ q ∈ w.a.pages, (f q).2.length = q.2.length := by
    intro q hq
    rw [← hf]; simp only; split
    · rename_i he
      have := uniq q hq he
      subst this
      simp only [List.length_append, List.length_take, List.length_drop]; omega
    · rfl
  have hids : (w.a.pages.map f).map (·.1) = w.a.pages.map (·.1) := by
    rw [List.map_map]; congr 1; funext q; exact hf1 q
  have hnd : ((w.a.pages.map f).map (·.1)).Nodup := by rw [hids]; exact h.nodup
  have hin : ∀ c : Block, Inside w.a c → ∃ mc, (c.ptr.page, mc) ∈ w.a.pages ∧ c.ptr.off + c.size ≤ mc.length ∧
      (c.ptr.page, (f (c.ptr.page, mc)).2) ∈ w.a.pages.map f := by
    intro c ⟨mc, hmc, hl⟩
    refine ⟨mc, hmc, hl, List.mem_map.2 ⟨_, hmc, ?_⟩⟩
    exact Prod.ext (hf1 _) rfl
  refine ⟨⟨?_, hnd, ?_, ?_, ?_, ?_, ?_, h.disj⟩, ?_, ?_⟩
  · intro q hq
    obtain ⟨q0, hq0, rfl⟩ := List.mem_map.1 hq
    rw [hf1]; exact h.ids q0 hq0
  · intro q hq
    obtain ⟨q0, hq0, rfl⟩ := List.mem_map.1 hq
    rw [hf2 _ hq0]; exact h.big q0 hq0
  · intro he
    have : w.a.pages = [] := by simpa using he
    exact h.empty this
  · intro hd rest he
    obtain ⟨q0, l, e1, e2, -⟩ := List.map_eq_cons_iff.1 he
    have := h.head q0 l e1
    rw [← e2, hf2 q0 (by rw [e1]; simp)]; exact this
  · intro c hc
    obtain ⟨x, y, z⟩ := h.inside c hc
    obtain ⟨mc, hmc, hl, hmem⟩ := hin c z
    exact ⟨x, y, _, hmem, by rw [hf2 _ hmc]; exact hl⟩
  · intro hd rest he c hc hpg
    obtain ⟨q0, l, e1, e2, -⟩ := List.map_eq_cons_iff.1 he
    rw [← e2, hf1] at hpg
    exact h.below q0 l e1 c hc hpg
  · obtain ⟨mc, hmc, hl, hmem⟩ := hin b ⟨m, hm, hml⟩
    have := uniq _ hmc rfl
    simp only [Prod.mk.injEq, true_and] at this
    subst this
    have hfl := hf2 _ hmc
    have := peek_mem (a := { w.a with pages := w.a.pages.map f }) hnd hmem (b.ptr.off + off) bs.length
      (by rw [hfl]; simp only; omega)
    rw [this]
    rw [← hf]
    simp only [if_true]
    rw [List.append_assoc, List.drop_append_of_le_length (by rw [List.length_take]; omega)]
    rw [List.drop_of_length_le (by rw [List.length_take]; omega)]
    simp
  · intro c hc hd
    obtain ⟨x, y, z⟩ := h.inside c hc
    obtain ⟨mc, hmc, hl, hmem⟩ := hin c z
    have e1 := peek_mem h.nodup hmc c.ptr.off c.size hl
    have e2 := peek_mem (a := { w.a with pages := w.a.pages.map f }) hnd hmem c.ptr.off c.size
      (by rw [hf2 _ hmc]; exact hl)
    refine (e2.trans ?_).trans e1.symm
    congr 1
    rw [← hf]
    simp only
    split
    · rename_i he
      have := uniq _ hmc he
      simp only [Prod.mk.injEq] at this
      obtain ⟨-, rfl⟩ := this
      rcases hd with hd | hd | hd
      · exact absurd he.symm hd
      · -- the written range is before c
        have e3 : (mc.take (b.ptr.off + off) ++ bs).length = b.ptr.off + off + bs.length := by
          rw [List.length_append, List.length_take]; omega
        rw [List.drop_append]
        rw [List.drop_of_length_le (l := mc.take (b.ptr.off + off) ++ bs) (by omega), e3, List.nil_append,
          List.drop_drop]
        congr 2; omega
      · -- after c
        rw [List.append_assoc, List.drop_append_of_le_length (by rw [List.length_take]; omega),
          List.take_append_of_le_length (by rw [List.length_drop, List.length_take]; omega),
          List.drop_take, List.take_take]
        congr 1; omega
    · rfl

theorem freeChain_inv (link : Nat → Nat) (keep : Bool) {w : World} (h : Inv w) :
    Inv { a := freeChain link keep w.a, blocks := [] } := by
  unfold freeChain
  split
  · exact ⟨by simp, by simp, by simp, by simp, by simp, by simp, by simp, by simp⟩
  · rename_i hid hm rest hpg
    have h1 := h.ids (hid, hm) (by rw [hpg]; simp)
    have h2 := h.big (hid, hm) (by rw [hpg]; simp)
    have h3 := h.head _ _ hpg
    have h4 := setLink_len link hm h2
    simp only at h1 h2 h3
    split
    · refine ⟨?_, by simp, ?_, by simp, ?_, by simp, by simp, by simp⟩
      · intro q hq; simp only [List.mem_singleton] at hq; subst hq; exact h1
      · intro q hq; simp only [List.mem_singleton] at hq; subst hq; simp only; omega
      · intro hd r he
        simp only [List.cons.injEq] at he
        obtain ⟨rfl, -⟩ := he
        simp only; omega
    · exact ⟨by simp, by simp, by simp, by simp, by simp, by simp, by simp, by simp⟩

theorem init_inv (max : Nat) : Inv { a := init max, blocks := [] } := by
  unfold init
  exact ⟨by simp, by simp, by simp, by simp, by simp, by simp, by simp, by simp⟩

/-- Pairwise disjointness of distinct live blocks, in either order. -/
theorem disj_of_ne {w : World} (h : Inv w) {b c : Block} (hb : b ∈ w.blocks) (hc : c ∈ w.blocks) (hne : b ≠ c) :
    Disjoint b c := by
  have hp := h.disj
  generalize w.blocks = l at *
  clear h
  induction l with
  | nil => simp at hb
  | cons x l ih =>
    rw [List.pairwise_cons] at hp
    simp only [List.mem_cons] at hb hc
    rcases hb with rfl | hb <;> rcases hc with rfl | hc
    · exact absurd rfl hne
    · exact hp.1 _ hc
    · have := hp.1 _ hb
      rcases this with h | h | h
      · exact .inl (fun e => h e.symm)
      · exact .inr (.inr h)
      · exact .inr (.inl h)
    · exact ih hb hc hp.2

/-- The main step lemma. -/
theorem step_inv {w : World} (h : Inv w) (op : Op) (hok : OpOk w op) :
    ∃ w', step w op = some w' ∧ Inv w' ∧
      ∀ b ∈ w.blocks, Leaves b op → b ∈ w'.blocks ∧ peek w'.a b.ptr b.size = peek w.a b.ptr b.size := by
  cases op with
  | alloc e n =>
    have hA := alloc_inv (junk := e.junk) (link := e.link) (ok1 := e.ok1) (ok2 := e.ok2) h n
    rcases hal : alloc e.junk e.link e.ok1 e.ok2 w.a n with ⟨a', _ | p⟩
    · obtain ⟨i, k⟩ := hA.1 a' hal
      refine ⟨_, by simp only [step, hal], i, fun b hb _ => ⟨hb, ?_⟩⟩
      obtain ⟨x, -, z⟩ := h.inside b hb
      exact keeps_peek k h.nodup i.nodup b z x
    · obtain ⟨i, k⟩ := hA.2 a' p hal
      refine ⟨_, by simp only [step, hal], i, fun b hb _ => ⟨List.mem_cons_of_mem _ hb, ?_⟩⟩
      obtain ⟨x, -, z⟩ := h.inside b hb
      exact keeps_peek k h.nodup i.nodup b z x
  | store e s =>
    have hA := alloc_inv (junk := e.junk) (link := e.link) (ok1 := e.ok1) (ok2 := e.ok2) h (s.length + 1)
    rcases hal : alloc e.junk e.link e.ok1 e.ok2 w.a (s.length + 1) with ⟨a', _ | p⟩
    · obtain ⟨i, k⟩ := hA.1 a' hal
      refine ⟨{ w with a := a' }, by simp only [step, store, hal], i, fun b hb _ => ⟨hb, ?_⟩⟩
      obtain ⟨x, -, z⟩ := h.inside b hb
      exact keeps_peek k h.nodup i.nodup b z x
    · obtain ⟨i, k⟩ := hA.2 a' p hal
      obtain ⟨a2, hp, i2, -, hfr⟩ := poke_inv i ⟨p, s.length + 1⟩ (by simp) 0 (s ++ [0]) (by simp)
      simp only [Nat.add_zero] at hp
      refine ⟨{ a := a2, blocks := ⟨p, s.length + 1⟩ :: w.blocks }, ?_, i2, fun b hb _ => ⟨List.mem_cons_of_mem _ hb, ?_⟩⟩
      · simp only [step, store, hal]
        have : poke a' p (s ++ [0]) = some a2 := hp
        rw [this]; rfl
      · obtain ⟨x, -, z⟩ := h.inside b hb
        have hd := i.disj
        rw [List.pairwise_cons] at hd
        exact (hfr b (List.mem_cons_of_mem _ hb) (hd.1 b hb)).trans (keeps_peek k h.nodup i.nodup b z x)
  | write c off bs =>
    obtain ⟨hc, hle⟩ := hok
    obtain ⟨a2, hp, i2, -, hfr⟩ := poke_inv h c hc off bs hle
    refine ⟨{ w with a := a2 }, by simp only [step, hp]; rfl, i2, fun b hb hl => ⟨hb, ?_⟩⟩
    exact hfr b hb (disj_of_ne h hc hb hl)
  | reset e =>
    exact ⟨_, rfl, freeChain_inv _ _ h, fun b _ hl => absurd hl (by simp [Leaves])⟩
  | clear e =>
    exact ⟨_, rfl, freeChain_inv _ _ h, fun b _ hl => absurd hl (by simp [Leaves])⟩

theorem runs_inv {w w' : World} {ops : List Op} (h : Inv w) (hr : Runs w ops w') : Inv w' := by
  induction hr with
  | nil => exact h
  | cons hok hs _ ih =>
    obtain ⟨w1, e, i, -⟩ := step_inv h _ hok
    rw [e] at hs; cases hs
    exact ih i

theorem runs_frame {w w' : World} {ops : List Op} (h : Inv w) (hr : Runs w ops w') (b : Block) (hb : b ∈ w.blocks)
    (hl : ∀ op ∈ ops, Leaves b op) : b ∈ w'.blocks ∧ peek w'.a b.ptr b.size = peek w.a b.ptr b.size := by
  induction hr with
  | nil => exact ⟨hb, rfl⟩
  | cons hok hs _ ih =>
    obtain ⟨w1, e, i, hf⟩ := step_inv h _ hok
    rw [e] at hs; cases hs
    obtain ⟨m1, p1⟩ := hf b hb (hl _ (by simp))
    obtain ⟨m2, p2⟩ := ih i m1 (fun op ho => hl op (by simp [ho]))
    exact ⟨m2, p2.trans p1⟩

/-- What `store` leaves behind. -/
theorem store_contents {w w' : World} (h : Inv w) (e : Env) (s : List Nat) (hs : step w (.store e s) = some w') :
    (w'.blocks = w.blocks) ∨
    ∃ p, w'.blocks = ⟨p, s.length + 1⟩ :: w.blocks ∧ peek w'.a p (s.length + 1) = some (s ++ [0]) := by
  have hA := alloc_inv (junk := e.junk) (link := e.link) (ok1 := e.ok1) (ok2 := e.ok2) h (s.length + 1)
  rcases hal : alloc e.junk e.link e.ok1 e.ok2 w.a (s.length + 1) with ⟨a', _ | p⟩
  · left
    simp only [step, store, hal, Option.some.injEq] at hs
    subst hs; rfl
  · right
    obtain ⟨i, k⟩ := hA.2 a' p hal
    obtain ⟨a2, hp, i2, hpk, -⟩ := poke_inv i ⟨p, s.length + 1⟩ (by simp) 0 (s ++ [0]) (by simp)
    simp only [Nat.add_zero] at hp hpk
    have hp' : poke a' p (s ++ [0]) = some a2 := hp
    simp only [step, store, hal, hp', Option.map_some, Option.some.injEq] at hs
    subst hs
    refine ⟨p, rfl, ?_⟩
    have : (s ++ [0]).length = s.length + 1 := by simp
    rw [this] at hpk
    exact hpk

end Clink.LinearAlloc
