import Verif.Proof.Lookaside

/-! C21: packed matches unpack to what was packed. -/

namespace Clink.Lookaside

open Spec (Op Alive Listed One Disciplined)

/-- Packing writes exactly the computed number of bytes, and nothing outside of the buffer; it is refused only for an empty match
or an empty display text. -/
theorem C21_pack (debug : Bool) {m : Match} (hs : Spec.Strings m) {buf : List Nat}
    (hb : buf.length = calcPackedSize debug m.text m.display m.description) :
    ∃ block n ok, packMatch debug buf m = some (block, n, ok) ∧ block.length = buf.length ∧ n ≤ buf.length ∧
      (ok = true ↔ Spec.Packable m) ∧ (ok = true → n = buf.length) := by
  rw [size_eq debug hs] at hb
  by_cases hp : Spec.Packable m
  · exact ⟨_, _, _, pack_eq debug hs hp hb, hb.symm, Nat.le_refl _, ⟨fun _ => hp, fun _ => rfl⟩, fun _ => rfl⟩
  · have h1 := hs m.text (by simp)
    have h2 := hs m.display (by simp)
    unfold packMatch
    by_cases e1 : empty m.text = true
    · rw [if_pos e1]
      exact ⟨_, _, _, rfl, rfl, Nat.zero_le _, ⟨by simp, fun h => absurd h hp⟩, by simp⟩
    · rw [if_neg e1]
      have e2 : empty m.display = true := by
        refine (empty_iff h2).2 (Classical.byContradiction fun hn => hp ⟨fun h => e1 ((empty_iff h1).2 h), hn⟩)
      have hlen : (m.text.getD []).length + 1 ≤ buf.length := by
        rw [hb]
        unfold packed
        simp only [List.length_append, List.length_map, List.length_cons, List.length_nil]
        omega
      obtain ⟨b1, r1, rfl, hb1⟩ := split_at buf _ hlen
      have s1 := appendLoop_eq false (m.text.getD []) [] b1 r1 (getD_clean h1) hb1
      simp only [List.nil_append, List.length_nil] at s1
      unfold appendString
      rw [s1, e2]
      simp only [Option.bind_eq_bind, Option.bind_some, if_true, Option.pure_def]
      refine ⟨_, _, _, rfl, ?_, ?_, ⟨by simp, fun h => absurd h hp⟩, by simp⟩
      · simp [hb1]; omega
      · simp [hb1]

/-- A packed match can be unpacked, and its fields and strings are those that were packed, in one line each. -/
theorem C21_unpack (debug : Bool) {m : Match} (hs : Spec.Strings m) (hp : Spec.Packable m) (hf : Spec.Fields m) (hshort : Spec.Short debug m)
    {heap : Heap} {p : Nat} (hp0 : p ≠ 0) (hh : Spec.Holds debug heap p m) :
    ∃ block extra, heap p = some block ∧ unpack debug block = some extra ∧ Spec.Says heap (p, extra) m := by
  obtain ⟨buf, block, n, h1, h2, h3⟩ := hh
  rw [size_eq debug hs] at h2
  rw [pack_eq debug hs hp h2] at h3
  cases h3
  refine ⟨_, _, h1, unpack_eq debug hs hf, ?_⟩
  have c1 := map_clean (tabs := false) (getD_clean (hs m.text (by simp)))
  have c2 := map_clean (tabs := false) (getD_clean (hs m.display (by simp)))
  have c3 := map_clean (tabs := false) (getD_clean (hs m.description (by simp)))
  have hd : displayAt debug m % 65536 = displayAt debug m := by
    refine Nat.mod_eq_of_lt ?_
    unfold Spec.Short at hshort
    unfold displayAt
    cases debug <;> simp at hshort ⊢ <;> omega
  have hq : descriptionAt debug m % 65536 = descriptionAt debug m := Nat.mod_eq_of_lt hshort
  have get : ∀ off s, readString (packed debug m) off = some s → getString heap p off = some (some s) := by
    intro off s h
    unfold getString
    rw [if_neg hp0, h1]
    simp only [Option.bind_some, h, Option.map_some]
  refine ⟨rfl, rfl, rfl, ⟨_, get _ _ ?_, oneLine_map _⟩, ⟨_, get _ _ ?_, oneLine_map _⟩, ⟨_, get _ _ ?_, oneLine_map _⟩⟩
  · have := readString_eq [] ((m.text.getD []).map (blank false)) ([m.type % 256, m.type / 256 % 256, m.appendChar, m.flags] ++
      (if debug then [58, 76, 65, 58] else []) ++ ((m.display.getD []).map (blank false) ++ [0]) ++ ((m.description.getD []).map (blank false) ++ [0])) c1
    unfold packed
    simpa using this
  · show readString _ (displayAt debug m % 65536) = _
    rw [hd]
    have := readString_eq ((m.text.getD []).map (blank false) ++ [0] ++ [m.type % 256, m.type / 256 % 256, m.appendChar, m.flags] ++
      (if debug then [58, 76, 65, 58] else [])) ((m.display.getD []).map (blank false)) ((m.description.getD []).map (blank false) ++ [0]) c2
    have hl : ((m.text.getD []).map (blank false) ++ [0] ++ [m.type % 256, m.type / 256 % 256, m.appendChar, m.flags] ++
      (if debug then [58, 76, 65, 58] else [])).length = displayAt debug m := by
      unfold displayAt
      cases debug <;> simp
    rw [hl] at this
    unfold packed
    simpa using this
  · show readString _ (descriptionAt debug m % 65536) = _
    rw [hq]
    have := readString_eq ((m.text.getD []).map (blank false) ++ [0] ++ [m.type % 256, m.type / 256 % 256, m.appendChar, m.flags] ++
      (if debug then [58, 76, 65, 58] else []) ++ ((m.display.getD []).map (blank false) ++ [0])) ((m.description.getD []).map (blank false)) [] c3
    have hl : ((m.text.getD []).map (blank false) ++ [0] ++ [m.type % 256, m.type / 256 % 256, m.appendChar, m.flags] ++
      (if debug then [58, 76, 65, 58] else []) ++ ((m.display.getD []).map (blank false) ++ [0])).length = descriptionAt debug m := by
      unfold descriptionAt
      cases debug <;> simp <;> omega
    rw [hl] at this
    unfold packed
    simpa using this

/-! The tables. -/

def value (map : List (Nat × Extra)) (p : Nat) : Option Extra := (map.find? (·.1 == p)).map (·.2)

theorem value_emplace (map : List (Nat × Extra)) (k p : Nat) (x : Extra) :
    value (emplace map k x) p = (value map p).or (if p = k then some x else none) := by
  unfold value emplace
  by_cases h : map.any (·.1 == k) = true
  · rw [if_pos h]
    by_cases hp : p = k
    · subst hp
      have : (map.find? (·.1 == p)).isSome = true := by rw [List.find?_isSome]; simpa using h
      obtain ⟨y, hy⟩ := Option.isSome_iff_exists.1 this
      simp [hy]
    · simp [hp]
  · rw [if_neg h]
    rw [List.find?_append]
    by_cases hp : p = k
    · subst hp
      cases hm : map.find? (·.1 == p) with
      | some y => simp
      | none => simp
    · have : ([(k, x)] : List (Nat × Extra)).find? (·.1 == p) = none := by simp [Ne.symm hp]
      rw [this]
      simp [hp]

theorem listed_nil (p : Nat) : ¬ Listed [] p := by
  rintro ⟨-, a, b, h, -⟩
  simp at h

theorem listed_cons (q p : Nat) (ps : List Nat) : Listed (q :: ps) p ↔ q ≠ 0 ∧ (p = q ∨ Listed ps p) := by
  unfold Spec.Listed
  constructor
  · rintro ⟨h0, a, b, h, hz⟩
    cases a with
    | nil => cases h; exact ⟨h0, .inl rfl⟩
    | cons x a =>
      cases h
      simp only [List.mem_cons, not_or] at hz
      exact ⟨Ne.symm hz.1, .inr ⟨h0, a, b, rfl, hz.2⟩⟩
  · rintro ⟨h0, rfl | ⟨h1, a, b, rfl, hz⟩⟩
    · exact ⟨h0, [], ps, rfl, by simp⟩
    · exact ⟨h1, q :: a, b, rfl, by simp [Ne.symm h0, hz]⟩

theorem addAll_spec (debug : Bool) (heap : Heap) (ps : List Nat) (map map' : List (Nat × Extra)) (h : addAll debug heap ps map = some map') (p : Nat) :
    (∀ x, value map p = some x → value map' p = some x) ∧
    (value map p = none → Listed ps p → ∃ block x, heap p = some block ∧ unpack debug block = some x ∧ value map' p = some x) ∧
    (value map p = none → ¬ Listed ps p → value map' p = none) := by
  induction ps generalizing map with
  | nil => cases h; exact ⟨fun x h => h, fun _ h => absurd h (listed_nil p), fun h _ => h⟩
  | cons q ps ih =>
    unfold addAll at h
    by_cases hq : q = 0
    · rw [if_pos hq] at h
      cases h
      exact ⟨fun x h => h, fun _ h => absurd hq ((listed_cons q p ps).1 h).1, fun h _ => h⟩
    · rw [if_neg hq] at h
      simp only [Option.bind_eq_some_iff] at h
      obtain ⟨block, h1, x, h2, h3⟩ := h
      obtain ⟨i1, i2, i3⟩ := ih _ h3
      rw [value_emplace] at i1 i2 i3
      refine ⟨fun y hy => ?_, fun hn hl => ?_, fun hn hl => ?_⟩
      · rw [hy] at i1
        exact i1 y rfl
      · rw [hn] at i1 i2
        by_cases hp : p = q
        · subst hp
          exact ⟨block, x, h1, h2, i1 x (by simp)⟩
        · exact i2 (by simp [hp]) ((((listed_cons q p ps).1 hl).2).resolve_left hp)
      · rw [hn] at i3
        have : p ≠ q := fun e => hl ((listed_cons q p ps).2 ⟨hq, .inl e⟩)
        exact i3 (by simp [this]) fun hl' => hl ((listed_cons q p ps).2 ⟨hq, .inr hl'⟩)

theorem run_append (debug : Bool) (a b : List (Heap × Op)) (s : State) : Spec.run debug s (a ++ b) = (Spec.run debug s a).bind fun s => Spec.run debug s b := by
  induction a generalizing s with
  | nil => rfl
  | cons x a ih =>
    obtain ⟨heap, op⟩ := x
    cases op with
    | create o ms =>
      simp only [List.cons_append, Spec.run]
      cases s.create debug heap o ms with
      | none => rfl
      | some r => exact ih r.1
    | destroy o => exact ih _
    | setOne p t a f => exact ih _
    | clearOne => exact ih _

/-- One table that is alive: the operation that made it, the array, and the memory then. -/
structure Live where
  i : Nat
  owner : Nat
  heap : Heap
  ms : List Nat

/-- The tables are those of the arrays that are alive, the newest first. -/
structure Inv (debug : Bool) (ops : List (Heap × Op)) (s : State) (live : List Live) : Prop where
  owners : s.tables.map (·.owner) = live.map (·.owner)
  maps : ∀ (k : Nat) (t : Table) (l : Live), s.tables[k]? = some t → live[k]? = some l → addAll debug l.heap l.ms [] = some t.map
  alive : ∀ i owner heap ms, Alive ops i owner heap ms ↔ (⟨i, owner, heap, ms⟩ : Live) ∈ live
  newest : live.Pairwise fun a b => b.i < a.i
  distinct : live.Pairwise fun a b => a.owner ≠ b.owner
  one : One ops none ∧ s.oneMatch = 0 ∧ s.oneExtra = {} ∨
    ∃ p t a f, One ops (some (p, t, a, f)) ∧ s.oneMatch = p ∧ s.oneExtra = { type := t, appendChar := a, flags := f }

theorem getElem?_snoc {α : Type} (l : List α) (x : α) (i : Nat) (y : α) : (l ++ [x])[i]? = some y ↔ l[i]? = some y ∨ (i = l.length ∧ x = y) := by
  rcases Nat.lt_trichotomy i l.length with h | h | h
  · rw [List.getElem?_append_left h]
    constructor
    · exact .inl
    · rintro (h' | ⟨h', -⟩)
      · exact h'
      · omega
  · subst h
    simp
  · rw [List.getElem?_eq_none (by simp; omega), List.getElem?_eq_none (by omega)]
    simp only [reduceCtorEq, false_or, false_iff, not_and]
    intro; omega

theorem lt_of_some {α : Type} {l : List α} {i : Nat} {x : α} (h : l[i]? = some x) : i < l.length := by
  refine Classical.byContradiction fun hn => ?_
  rw [List.getElem?_eq_none (by omega)] at h
  cases h

theorem alive_snoc (ops : List (Heap × Op)) (heap0 : Heap) (op : Op) (i owner : Nat) (heap : Heap) (ms : List Nat) :
    Alive (ops ++ [(heap0, op)]) i owner heap ms ↔
      (Alive ops i owner heap ms ∧ op ≠ .destroy owner) ∨ (i = ops.length ∧ heap0 = heap ∧ op = .create owner ms ∧ owner ≠ 0) := by
  unfold Spec.Alive
  constructor
  · rintro ⟨h1, h0, h2⟩
    rcases (getElem?_snoc _ _ _ _).1 h1 with h1' | ⟨h1', h3⟩
    · left
      refine ⟨⟨h1', h0, fun j hj h hc => h2 j hj h ((getElem?_snoc _ _ _ _).2 (.inl hc))⟩, ?_⟩
      rintro rfl
      exact h2 ops.length (lt_of_some h1') heap0 ((getElem?_snoc _ _ _ _).2 (.inr ⟨rfl, rfl⟩))
    · right
      cases h3
      exact ⟨h1', rfl, rfl, h0⟩
  · rintro (⟨⟨h1, h0, h2⟩, h3⟩ | ⟨h1, rfl, rfl, h0⟩)
    · refine ⟨(getElem?_snoc _ _ _ _).2 (.inl h1), h0, fun j hj h hc => ?_⟩
      rcases (getElem?_snoc _ _ _ _).1 hc with hc | ⟨-, hc⟩
      · exact h2 j hj h hc
      · cases hc
        exact h3 rfl
    · subst h1
      refine ⟨(getElem?_snoc _ _ _ _).2 (.inr ⟨rfl, rfl⟩), h0, fun j hj h hc => ?_⟩
      have := lt_of_some hc
      simp at this
      omega

theorem one_other {ops : List (Heap × Op)} {q : Option (Nat × Nat × Nat × Nat)} (h : One ops q) (heap : Heap) {op : Op}
    (h1 : ∀ p t a f, op ≠ .setOne p t a f) (h2 : op ≠ .clearOne) : One (ops ++ [(heap, op)]) q := by
  cases h with
  | never h =>
    refine .never fun j h' p t a f hc => ?_
    rcases (getElem?_snoc _ _ _ _).1 hc with hc | ⟨-, hc⟩
    · exact h j h' p t a f hc
    · cases hc; exact h1 _ _ _ _ rfl
  | set hi hl =>
    refine .set ((getElem?_snoc _ _ _ _).2 (.inl hi)) fun j hj h' => ⟨fun hc => ?_, fun p t a f hc => ?_⟩
    · rcases (getElem?_snoc _ _ _ _).1 hc with hc | ⟨-, hc⟩
      · exact (hl j hj h').1 hc
      · cases hc; exact h2 rfl
    · rcases (getElem?_snoc _ _ _ _).1 hc with hc | ⟨-, hc⟩
      · exact (hl j hj h').2 p t a f hc
      · cases hc; exact h1 _ _ _ _ rfl
  | cleared hi hl =>
    refine .cleared ((getElem?_snoc _ _ _ _).2 (.inl hi)) fun j hj h' p t a f hc => ?_
    rcases (getElem?_snoc _ _ _ _).1 hc with hc | ⟨-, hc⟩
    · exact hl j hj h' p t a f hc
    · cases hc; exact h1 _ _ _ _ rfl

theorem last_snoc {ops : List (Heap × Op)} {x : Heap × Op} {j : Nat} (hj : ops.length < j) {y : Heap × Op} : (ops ++ [x])[j]? ≠ some y := by
  intro hc
  have := lt_of_some hc
  simp at this
  omega

theorem erase_eq (live : List Live) (tables : List Table) (owner : Nat) (h : tables.map (·.owner) = live.map (·.owner))
    (hd : live.Pairwise fun a b => a.owner ≠ b.owner) :
    (tables.eraseP (·.owner == owner)).map (·.owner) = (live.filter (·.owner != owner)).map (·.owner) ∧
      ∀ (P : Table → Live → Prop), (∀ (k : Nat) (t : Table) (l : Live), tables[k]? = some t → live[k]? = some l → P t l) →
        ∀ (k : Nat) (t : Table) (l : Live), (tables.eraseP (·.owner == owner))[k]? = some t → (live.filter (·.owner != owner))[k]? = some l → P t l := by
  induction live generalizing tables with
  | nil =>
    have : tables = [] := by simpa using h
    subst this
    exact ⟨rfl, fun P _ k t l h => by simp at h⟩
  | cons l live ih =>
    obtain ⟨t, ts, rfl⟩ : ∃ t ts, tables = t :: ts := by cases tables with | nil => simp at h | cons t ts => exact ⟨t, ts, rfl⟩
    simp only [List.map_cons, List.cons.injEq] at h
    obtain ⟨d1, d2⟩ := List.pairwise_cons.1 hd
    by_cases hl : l.owner = owner
    · have hfil : (live.filter (·.owner != owner)) = live := by
        rw [List.filter_eq_self]
        intro x hx
        have := d1 x hx
        rw [hl] at this
        simpa using Ne.symm this
      rw [List.eraseP_cons_of_pos (by simp [h.1, hl]), List.filter_cons_of_neg (by simp [hl]), hfil]
      exact ⟨h.2, fun P hP k t' l' h1 h2 => hP (k + 1) t' l' h1 h2⟩
    · obtain ⟨i1, i2⟩ := ih ts h.2 d2
      rw [List.eraseP_cons_of_neg (by simp [h.1, hl]), List.filter_cons_of_pos (by simp [hl])]
      refine ⟨by simp [h.1, i1], fun P hP k t' l' h1 h2 => ?_⟩
      cases k with
      | zero => exact hP 0 t' l' h1 h2
      | succ k => exact i2 P (fun k t l h1 h2 => hP (k + 1) t l h1 h2) k t' l' h1 h2

theorem inv_run (debug : Bool) (ops : List (Heap × Op)) (hd : Disciplined ops) (s : State) (h : Spec.run debug {} ops = some s) :
    ∃ live, Inv debug ops s live := by
  obtain ⟨n, hn⟩ : ∃ n, n = ops.length := ⟨_, rfl⟩
  induction n generalizing ops s with
  | zero =>
    have : ops = [] := List.length_eq_zero_iff.1 hn.symm
    subst this
    cases h
    refine ⟨[], rfl, by simp, ?_, .nil, .nil, .inl ⟨.never (by simp), rfl, rfl⟩⟩
    intro i owner heap ms
    simp [Spec.Alive]
  | succ n ih =>
    obtain ⟨ops', x, rfl⟩ : ∃ o x, ops = o ++ [x] := by
      rcases List.eq_nil_or_concat ops with rfl | ⟨o, x, rfl⟩
      · simp at hn
      · exact ⟨o, x, List.concat_eq_append⟩
    have hlen : n = ops'.length := by simpa using hn
    rw [run_append] at h
    simp only [Option.bind_eq_some_iff] at h
    obtain ⟨s', h1, h2⟩ := h
    have hd' : Disciplined ops' := by
      intro j hh owner ms hj h0 i heap ms' ha
      have hjl := lt_of_some hj
      refine hd j hh owner ms ((getElem?_snoc _ _ _ _).2 (.inl hj)) h0 i heap ms' ?_
      rw [List.take_append_of_le_length (by omega)]
      exact ha
    obtain ⟨live, inv⟩ := ih ops' hd' s' h1 hlen
    obtain ⟨heap0, op⟩ := x
    cases op with
    | create owner ms =>
      simp only [Spec.run, Option.bind_eq_some_iff] at h2
      obtain ⟨r, h2, h3⟩ := h2
      cases h3
      unfold State.create at h2
      by_cases h0 : owner = 0
      · rw [if_pos h0] at h2
        cases h2
        refine ⟨live, inv.owners, inv.maps, fun i o h ms' => ?_, inv.newest, inv.distinct, ?_⟩
        · rw [← inv.alive, alive_snoc]
          constructor
          · rintro (⟨h, -⟩ | ⟨-, -, h, h'⟩)
            · exact h
            · cases h; exact absurd h0 h'
          · intro h; exact .inl ⟨h, by simp⟩
        · rcases inv.one with ⟨h, h'⟩ | ⟨p, t, a, f, h, h'⟩
          · exact .inl ⟨one_other h _ (by simp) (by simp), h'⟩
          · exact .inr ⟨p, t, a, f, one_other h _ (by simp) (by simp), h'⟩
      · rw [if_neg h0] at h2
        simp only [Option.map_eq_some_iff] at h2
        obtain ⟨map, h2, h3⟩ := h2
        cases h3
        have hnew : ∀ l ∈ live, l.owner ≠ owner := by
          rintro ⟨i, o, h, ms'⟩ hl rfl
          have := (inv.alive i o h ms').2 hl
          refine hd ops'.length heap0 o ms ((getElem?_snoc _ _ _ _).2 (.inr ⟨rfl, rfl⟩)) h0 i h ms' ?_
          rw [List.take_left]
          exact this
        have hold : ∀ l ∈ live, l.i < ops'.length := by
          rintro ⟨i, o, h, ms'⟩ hl
          exact lt_of_some ((inv.alive i o h ms').2 hl).1
        refine ⟨⟨ops'.length, owner, heap0, ms⟩ :: live, by simp [inv.owners], ?_, fun i o h ms' => ?_, List.pairwise_cons.2 ⟨hold, inv.newest⟩,
          List.pairwise_cons.2 ⟨fun l hl => Ne.symm (hnew l hl), inv.distinct⟩, ?_⟩
        · intro k t l h1 h2
          cases k with
          | zero =>
            simp only [List.getElem?_cons_zero, Option.some.injEq] at h1 h2
            subst h1 h2
            assumption
          | succ k => exact inv.maps k t l h1 h2
        · rw [List.mem_cons, ← inv.alive, alive_snoc]
          constructor
          · rintro (⟨h, -⟩ | ⟨rfl, rfl, h, h'⟩)
            · exact .inr h
            · cases h; exact .inl rfl
          · rintro (h | h)
            · cases h; exact .inr ⟨rfl, rfl, rfl, h0⟩
            · exact .inl ⟨h, by simp⟩
        · rcases inv.one with ⟨h, h'⟩ | ⟨p, t, a, f, h, h'⟩
          · exact .inl ⟨one_other h _ (by simp) (by simp), h'⟩
          · exact .inr ⟨p, t, a, f, one_other h _ (by simp) (by simp), h'⟩
    | destroy owner =>
      cases h2
      have hone : ∀ s1 : State, s1.oneMatch = s'.oneMatch → s1.oneExtra = s'.oneExtra →
          (One (ops' ++ [(heap0, Op.destroy owner)]) none ∧ s1.oneMatch = 0 ∧ s1.oneExtra = {} ∨
            ∃ p t a f, One (ops' ++ [(heap0, Op.destroy owner)]) (some (p, t, a, f)) ∧ s1.oneMatch = p ∧ s1.oneExtra = { type := t, appendChar := a, flags := f }) := by
        intro s1 e1 e2
        rw [e1, e2]
        rcases inv.one with ⟨h, h'⟩ | ⟨p, t, a, f, h, h'⟩
        · exact .inl ⟨one_other h _ (by simp) (by simp), h'⟩
        · exact .inr ⟨p, t, a, f, one_other h _ (by simp) (by simp), h'⟩
      unfold State.destroy
      by_cases h0 : owner = 0
      · rw [if_pos h0]
        refine ⟨live, inv.owners, inv.maps, fun i o h ms' => ?_, inv.newest, inv.distinct, hone _ rfl rfl⟩
        rw [← inv.alive, alive_snoc]
        constructor
        · rintro (⟨h, -⟩ | ⟨-, -, h, -⟩)
          · exact h
          · cases h
        · intro h
          refine .inl ⟨h, ?_⟩
          intro e
          cases e
          exact h.2.1 h0
      · rw [if_neg h0]
        obtain ⟨e1, e2⟩ := erase_eq live s'.tables owner inv.owners inv.distinct
        refine ⟨live.filter (·.owner != owner), e1, ?_, fun i o h ms' => ?_, inv.newest.sublist List.filter_sublist, inv.distinct.sublist List.filter_sublist, hone _ rfl rfl⟩
        · intro k t l h1 h2
          exact e2 (fun t l => addAll debug l.heap l.ms [] = some t.map) inv.maps k t l h1 h2
        · rw [List.mem_filter, ← inv.alive, alive_snoc]
          constructor
          · rintro (⟨h, h'⟩ | ⟨-, -, h, -⟩)
            · refine ⟨h, ?_⟩
              simp only [bne_iff_ne, ne_eq]
              rintro rfl
              exact h' rfl
            · cases h
          · rintro ⟨h, h'⟩
            refine .inl ⟨h, ?_⟩
            intro e
            cases e
            simp at h'
    | setOne p t a f =>
      cases h2
      refine ⟨live, inv.owners, inv.maps, fun i o h ms' => ?_, inv.newest, inv.distinct, .inr ⟨p, t, a, f, ?_, rfl, ?_⟩⟩
      · rw [← inv.alive, alive_snoc]
        constructor
        · rintro (⟨h, -⟩ | ⟨-, -, h, -⟩)
          · exact h
          · cases h
        · intro h; exact .inl ⟨h, by simp⟩
      · exact .set (i := ops'.length) (h := heap0) ((getElem?_snoc _ _ _ _).2 (.inr ⟨rfl, rfl⟩)) fun j hj h' => ⟨last_snoc hj, fun _ _ _ _ => last_snoc hj⟩
      · unfold State.setOne
        rcases inv.one with ⟨-, -, h⟩ | ⟨_, _, _, _, -, -, h⟩ <;> simp [h]
    | clearOne =>
      cases h2
      refine ⟨live, inv.owners, inv.maps, fun i o h ms' => ?_, inv.newest, inv.distinct, .inl ⟨?_, rfl, rfl⟩⟩
      · rw [← inv.alive, alive_snoc]
        constructor
        · rintro (⟨h, -⟩ | ⟨-, -, h, -⟩)
          · exact h
          · cases h
        · intro h; exact .inl ⟨h, by simp⟩
      · exact .cleared (i := ops'.length) (h := heap0) ((getElem?_snoc _ _ _ _).2 (.inr ⟨rfl, rfl⟩)) fun j hj h' _ _ _ _ => last_snoc hj

/-- There is at most one match that is set apart. -/
theorem one_unique {ops : List (Heap × Op)} {q q' : Option (Nat × Nat × Nat × Nat)} (h : One ops q) (h' : One ops q') : q = q' := by
  cases h with
  | never h =>
    cases h' with
    | never _ => rfl
    | set hi _ => exact absurd hi (h _ _ _ _ _ _)
    | cleared _ _ => rfl
  | set hi hl =>
    rename_i i h p t a f
    cases h' with
    | never h => exact absurd hi (h _ _ _ _ _ _)
    | set hi' hl' =>
      rename_i i' h' p' t' a' f'
      rcases Nat.lt_trichotomy i i' with g | g | g
      · exact absurd hi' ((hl _ g _).2 _ _ _ _)
      · subst g
        rw [hi] at hi'
        cases hi'
        rfl
      · exact absurd hi ((hl' _ g _).2 _ _ _ _)
    | cleared hi' hl' =>
      rename_i i' h'
      rcases Nat.lt_trichotomy i i' with g | g | g
      · exact absurd hi' (hl _ g _).1
      · subst g
        rw [hi] at hi'
        cases hi'
      · exact absurd hi (hl' _ g _ _ _ _ _)
  | cleared hi hl =>
    rename_i i h
    cases h' with
    | never _ => rfl
    | set hi' hl' =>
      rename_i i' h' p' t' a' f'
      rcases Nat.lt_trichotomy i i' with g | g | g
      · exact absurd hi' (hl _ g _ _ _ _ _)
      · subst g
        rw [hi] at hi'
        cases hi'
      · exact absurd hi (hl' _ g _).1
    | cleared _ _ => rfl

theorem findAll_spec (debug : Bool) (p : Nat) (tables : List Table) (live : List Live) (h : tables.map (·.owner) = live.map (·.owner))
    (hm : ∀ (k : Nat) (t : Table) (l : Live), tables[k]? = some t → live[k]? = some l → addAll debug l.heap l.ms [] = some t.map)
    (hn : live.Pairwise fun a b => b.i < a.i) :
    (∀ l ∈ live, Listed l.ms p → (∀ l' ∈ live, Listed l'.ms p → l'.i ≤ l.i) →
      ∃ block x, l.heap p = some block ∧ unpack debug block = some x ∧ findAll p tables = some x) ∧
    ((∀ l ∈ live, ¬ Listed l.ms p) → findAll p tables = none) := by
  induction live generalizing tables with
  | nil =>
    have : tables = [] := by simpa using h
    subst this
    exact ⟨by simp, fun _ => rfl⟩
  | cons l live ih =>
    obtain ⟨t, ts, rfl⟩ : ∃ t ts, tables = t :: ts := by cases tables with | nil => simp at h | cons t ts => exact ⟨t, ts, rfl⟩
    simp only [List.map_cons, List.cons.injEq] at h
    obtain ⟨n1, n2⟩ := List.pairwise_cons.1 hn
    obtain ⟨i1, i2⟩ := ih ts h.2 (fun k t l h1 h2 => hm (k + 1) t l h1 h2) n2
    obtain ⟨-, a2, a3⟩ := addAll_spec debug l.heap l.ms [] t.map (hm 0 t l rfl rfl) p
    have hf : t.find p = value t.map p := rfl
    by_cases hl : Listed l.ms p
    · obtain ⟨block, x, b1, b2, b3⟩ := a2 rfl hl
      refine ⟨fun l' hl' hp hlast => ?_, fun hno => absurd hl (hno l List.mem_cons_self)⟩
      rcases List.mem_cons.1 hl' with rfl | hl'
      · refine ⟨block, x, b1, b2, ?_⟩
        unfold findAll
        rw [hf, b3]
      · have := n1 l' hl'
        have := hlast l List.mem_cons_self hl
        omega
    · have hnone := a3 rfl hl
      have hstep : findAll p (t :: ts) = findAll p ts := by
        unfold findAll
        rw [hf, hnone]
        cases ts <;> rfl
      rw [hstep]
      refine ⟨fun l' hl' hp hlast => ?_, fun hno => i2 fun l' hl' => hno l' (List.mem_cons_of_mem _ hl')⟩
      rcases List.mem_cons.1 hl' with rfl | hl'
      · exact absurd hp hl
      · exact i1 l' hl' hp fun l'' hl'' hp' => hlast l'' (List.mem_cons_of_mem _ hl'') hp'

/-- What `lookup_match` gives: the match that was set apart; otherwise the data in the newest array that is alive and has this
pointer; otherwise nothing. -/
theorem C21_lookup (debug : Bool) {ops : List (Heap × Op)} (hd : Disciplined ops) {s : State} (h : Spec.run debug {} ops = some s) {p : Nat} (hp : p ≠ 0) :
    (∀ t a f, One ops (some (p, t, a, f)) → s.lookup p = (p, { type := t, appendChar := a, flags := f })) ∧
    ((∀ t a f, ¬ One ops (some (p, t, a, f))) →
      (∀ i owner heap ms, Alive ops i owner heap ms → Listed ms p → (∀ i' o h ms', Alive ops i' o h ms' → Listed ms' p → i' ≤ i) →
        ∃ block x, heap p = some block ∧ unpack debug block = some x ∧ s.lookup p = (p, x)) ∧
      ((∀ i owner heap ms, Alive ops i owner heap ms → ¬ Listed ms p) → s.lookup p = (0, noExtra))) := by
  obtain ⟨live, inv⟩ := inv_run debug ops hd s h
  obtain ⟨f1, f2⟩ := findAll_spec debug p s.tables live inv.owners inv.maps inv.newest
  constructor
  · intro t a f ho
    unfold State.lookup
    rcases inv.one with ⟨h1, -⟩ | ⟨p', t', a', f', h1, h2, h3⟩
    · cases one_unique ho h1
    · cases one_unique ho h1
      rw [if_pos h2, if_neg hp, h3]
  · intro hno
    have hne : s.oneMatch ≠ p := by
      rcases inv.one with ⟨h1, h2, -⟩ | ⟨p', t', a', f', h1, h2, h3⟩
      · rw [h2]; exact Ne.symm hp
      · rw [h2]
        rintro rfl
        exact hno _ _ _ h1
    unfold State.lookup
    rw [if_neg hne]
    constructor
    · intro i owner heap ms ha hl hlast
      obtain ⟨block, x, b1, b2, b3⟩ := f1 _ ((inv.alive i owner heap ms).1 ha) hl (fun l' hl' hp' => hlast _ _ _ _ ((inv.alive _ _ _ _).2 hl') hp')
      refine ⟨block, x, b1, b2, ?_⟩
      rw [b3]
      simp [hp]
    · intro hnone
      rw [f2 fun l hl hp' => hnone _ _ _ _ ((inv.alive _ _ _ _).2 hl) hp']

/-- A match in an array is found with its type, character, flags and texts, as long as its array has its table. -/
theorem C21_found (debug : Bool) {ops : List (Heap × Op)} (hd : Disciplined ops) {s : State} (h : Spec.run debug {} ops = some s) {p : Nat} (hp : p ≠ 0)
    (hno : ∀ t a f, ¬ One ops (some (p, t, a, f))) {i owner : Nat} {heap : Heap} {ms : List Nat} (ha : Alive ops i owner heap ms) (hl : Listed ms p)
    (hlast : ∀ i' o h ms', Alive ops i' o h ms' → Listed ms' p → i' ≤ i) {m : Match} (hs : Spec.Strings m) (hk : Spec.Packable m) (hf : Spec.Fields m)
    (hshort : Spec.Short debug m) (hh : Spec.Holds debug heap p m) {now : Heap} (hnow : now p = heap p) : Spec.Says now (s.lookup p) m := by
  obtain ⟨block, x, b1, b2, b3⟩ := ((C21_lookup debug hd h hp).2 hno).1 i owner heap ms ha hl hlast
  obtain ⟨block', x', c1, c2, c3⟩ := C21_unpack debug hs hk hf hshort hp hh
  rw [b1] at c1
  cases c1
  rw [b2] at c2
  cases c2
  rw [b3]
  have key : ∀ off, getString now p off = getString heap p off := by
    intro off
    unfold getString
    rw [hnow]
  exact ⟨c3.type, c3.appendChar, c3.flags, by rw [key]; exact c3.text, by rw [key]; exact c3.display, by rw [key]; exact c3.description⟩

/-- Nothing is read outside of the blocks as long as each pointer that is given leads to a packed match. -/
theorem C21_defined (debug : Bool) (ops : List (Heap × Op)) (s : State)
    (h : ∀ (i : Nat) (heap : Heap) (owner : Nat) (ms : List Nat), ops[i]? = some (heap, Op.create owner ms) → ∀ p, Listed ms p →
      ∃ m, Spec.Strings m ∧ Spec.Packable m ∧ Spec.Fields m ∧ Spec.Holds debug heap p m) : ∃ s', Spec.run debug s ops = some s' := by
  have adds : ∀ (heap : Heap) (ms : List Nat) (map : List (Nat × Extra)),
      (∀ p, Listed ms p → ∃ m, Spec.Strings m ∧ Spec.Packable m ∧ Spec.Fields m ∧ Spec.Holds debug heap p m) → ∃ map', addAll debug heap ms map = some map' := by
    intro heap ms
    induction ms with
    | nil => intro map _; exact ⟨map, rfl⟩
    | cons q ms ih =>
      intro map hm
      unfold addAll
      by_cases hq : q = 0
      · rw [if_pos hq]; exact ⟨map, rfl⟩
      · rw [if_neg hq]
        obtain ⟨m, hs, hk, hf, buf, block, n, h1, h2, h3⟩ := hm q ((listed_cons q q ms).2 ⟨hq, .inl rfl⟩)
        rw [size_eq debug hs] at h2
        rw [pack_eq debug hs hk h2] at h3
        cases h3
        rw [h1]
        simp only [Option.bind_some, unpack_eq debug hs hf]
        exact ih _ fun p hp => hm p ((listed_cons q p ms).2 ⟨hq, .inr hp⟩)
  induction ops generalizing s with
  | nil => exact ⟨s, rfl⟩
  | cons x ops ih =>
    have ih := fun s => ih s fun i heap owner ms hi => h (i + 1) heap owner ms (by simpa using hi)
    obtain ⟨heap, op⟩ := x
    cases op with
    | create owner ms =>
      simp only [Spec.run, State.create]
      by_cases h0 : owner = 0
      · rw [if_pos h0]; exact ih _
      · rw [if_neg h0]
        obtain ⟨map, hm⟩ := adds heap ms [] (h 0 heap owner ms rfl)
        rw [hm]
        exact ih _
    | destroy owner => exact ih _
    | setOne p t a f => exact ih _
    | clearOne => exact ih _

/-- What Readline appends after a match: what the match says, if it says anything. -/
theorem C21_append (s : State) (p : Nat) (c : Completion) (m : Match) {now : Heap} (h : Spec.Says now (s.lookup p) m) :
    (s.overrideAppend p c).appendChar = (if m.appendChar = 0 then c.appendChar else m.appendChar) ∧
    (s.overrideAppend p c).suppress = (if m.flags.testBit 1 then m.flags.testBit 2 else c.suppress) ∧
    (s.overrideAppend p c).filename = (c.filename && (m.type % 8 == 6 || m.type % 8 == 7)) := by
  unfold State.overrideAppend
  simp only [h.type, h.appendChar, h.flags]
  have bit : ∀ (n k : Nat), n &&& 2 ^ k ≠ 0 ↔ n.testBit k = true := by
    intro n k
    constructor
    · intro h
      refine Classical.byContradiction fun hn => h (Nat.eq_of_testBit_eq fun i => ?_)
      rw [Nat.testBit_and, Nat.testBit_two_pow]
      by_cases hi : k = i
      · subst hi
        simp [hn]
      · simp [hi]
    · intro h e
      have : (n &&& 2 ^ k).testBit k = true := by simp [Nat.testBit_and, h]
      rw [e] at this
      simp at this
  have b1 := bit m.flags 1
  have b2 := bit m.flags 2
  refine ⟨?_, ?_, trivial⟩
  · by_cases h : m.appendChar = 0 <;> simp [h]
  · have e1 : (m.flags &&& 2 ≠ 0) = (m.flags.testBit 1 = true) := propext b1
    have e2 : (m.flags &&& 4 != 0) = m.flags.testBit 2 := by
      rw [Bool.eq_iff_iff]
      simpa using b2
    simp only [e1, e2]

/-- The match that is set apart has no strings of its own: its display and its description are both the match. -/
theorem C21_one_strings (debug : Bool) {ops : List (Heap × Op)} (hd : Disciplined ops) {s : State} (h : Spec.run debug {} ops = some s) {p t a f : Nat}
    (hp : p ≠ 0) (ho : One ops (some (p, t, a, f))) (now : Heap) :
    getString now (s.lookup p).1 (s.lookup p).2.displayOffset = getString now p 0 ∧
    getString now (s.lookup p).1 (s.lookup p).2.descriptionOffset = getString now p 0 := by
  rw [(C21_lookup debug hd h hp).1 t a f ho]
  exact ⟨rfl, rfl⟩

/-- The limit of C21_unpack is needed: after a match of 65531 bytes the offset of the display text is cut off, and the end of the
match itself is what is read as display text. -/
theorem C21_long {m : Match} (hs : Spec.Strings m) (hp : Spec.Packable m) (hf : Spec.Fields m) {l : List Nat} (hl : m.text = some l)
    (h1 : 65531 ≤ l.length) (h2 : l.length < 131067) {heap : Heap} {p : Nat} (hp0 : p ≠ 0) (hh : Spec.Holds false heap p m) :
    ∃ block extra t, heap p = some block ∧ unpack false block = some extra ∧ getString heap p extra.displayOffset = some (some t) ∧
      Spec.OneLine (l.drop (l.length - 65531)) t := by
  have hk : ∃ k, k = l.length - 65531 := ⟨_, rfl⟩
  obtain ⟨k, hk⟩ := hk
  rw [← hk]
  have hkl : k ≤ l.length := by omega
  have hd : displayAt false m % 65536 = k := by
    unfold displayAt
    simp only [hl, Option.getD_some]
    simp
    omega
  clear hk h1 h2
  obtain ⟨buf, block, n, g1, g2, g3⟩ := hh
  rw [size_eq false hs] at g2
  rw [pack_eq false hs hp g2] at g3
  cases g3
  refine ⟨_, _, (l.drop k).map (blank false), g1, unpack_eq false hs hf, ?_, oneLine_map _⟩
  have c1 := getD_clean (hs m.text (by simp))
  show getString heap p (displayAt false m % 65536) = _
  rw [hd]
  unfold getString
  rw [if_neg hp0, g1]
  have hc : 0 ∉ (l.drop k).map (blank false) := by
    have := map_clean (tabs := false) c1
    rw [hl] at this
    intro hc
    refine this ?_
    rw [List.map_drop] at hc
    exact List.mem_of_mem_drop hc
  have := readString_eq ((l.take k).map (blank false)) ((l.drop k).map (blank false)) ([m.type % 256, m.type / 256 % 256, m.appendChar, m.flags] ++
      ((m.display.getD []).map (blank false) ++ [0]) ++ ((m.description.getD []).map (blank false) ++ [0])) hc
  have hlen : ((l.take k).map (blank false)).length = k := by
    simp [hkl]
  rw [hlen, ← List.append_assoc, ← List.append_assoc, ← List.map_append, List.take_append_drop] at this
  simp only [Option.bind_some]
  unfold packed
  rw [hl]
  simp only [Option.getD_some, Bool.false_eq_true, if_false, List.append_nil]
  simpa using this

/-- Results: a table is made for every array that is not null, and destroying tells whether the array had a table. -/
theorem C21_results (debug : Bool) {ops : List (Heap × Op)} (hd : Disciplined ops) {s : State} (h : Spec.run debug {} ops = some s) (owner : Nat) :
    (∀ heap ms s' ok, s.create debug heap owner ms = some (s', ok) → (ok = true ↔ owner ≠ 0)) ∧
    ((s.destroy owner).2 = true ↔ ∃ i heap ms, Alive ops i owner heap ms) := by
  obtain ⟨live, inv⟩ := inv_run debug ops hd s h
  constructor
  · intro heap ms s' ok hc
    unfold State.create at hc
    split at hc
    · rename_i h0
      cases hc
      simp [h0]
    · rename_i h0
      obtain ⟨m, -, hm⟩ := Option.map_eq_some_iff.1 hc
      cases hm
      simp [h0]
  · have hany : s.tables.any (·.owner == owner) = true ↔ owner ∈ live.map (·.owner) := by
      rw [← inv.owners]
      simp
    unfold State.destroy
    split
    · rename_i h0
      refine ⟨by simp, fun ⟨i, heap, ms, ha⟩ => absurd h0 ha.2.1⟩
    · show s.tables.any (·.owner == owner) = true ↔ _
      rw [hany, List.mem_map]
      constructor
      · rintro ⟨⟨i, o, heap, ms⟩, hl, rfl⟩
        exact ⟨i, heap, ms, (inv.alive _ _ _ _).2 hl⟩
      · rintro ⟨i, heap, ms, ha⟩
        exact ⟨_, (inv.alive _ _ _ _).1 ha, rfl⟩

/-- A match that is not in any table counts as a word without flags or append character. -/
theorem C21_unknown (debug : Bool) {ops : List (Heap × Op)} (hd : Disciplined ops) {s : State} (h : Spec.run debug {} ops = some s) {p : Nat}
    (hp : p ≠ 0) (ho : ∀ t a f, ¬ One ops (some (p, t, a, f))) (hn : ∀ i owner heap ms, Alive ops i owner heap ms → ¬ Listed ms p) :
    (s.lookup p).1 = 0 ∧ (s.lookup p).2.type = 1 ∧ (s.lookup p).2.appendChar = 0 ∧ (s.lookup p).2.flags = 0 := by
  rw [((C21_lookup debug hd h hp).2 ho).2 hn]
  exact ⟨rfl, rfl, rfl, rfl⟩

/-! ### Examples -/

/-- The match `cd` with the display `cd/` and a description with a tab and line break. -/
def sample : Match := { text := some [99, 100], type := 6, display := some [99, 100, 47], description := some [97, 9, 98, 10], appendChar := 47, flags := 6 }

/-- The match `ls` without the rest. -/
def plain : Match := { text := some [108, 115], type := 1, display := none, description := none, appendChar := 0, flags := 0 }

def block (m : Match) : List Nat :=
  match packMatch false (List.replicate (calcPackedSize false m.text m.display m.description) 0) m with
  | some r => r.1
  | none => []

def memory : Heap := fun p => if p = 100 then some (block sample) else if p = 200 then some (block plain) else none

/-- Two arrays; both have the match at 100; the newer one goes away. -/
def trace : List (Heap × Op) :=
  [(memory, .create 1 [100, 200, 0]), (memory, .create 2 [100, 0]), (memory, .setOne 300 7 32 1), (memory, .destroy 2)]

example : Spec.Holds false memory 100 sample := ⟨List.replicate 16 0, block sample, 16, by decide +kernel, by decide +kernel, by decide +kernel⟩

example : Spec.Packable sample ∧ Spec.Fields sample ∧ Spec.Short false sample := by
  refine ⟨?_, ?_, ?_⟩
  · exact ⟨by decide, by decide⟩
  · exact ⟨by decide, by decide, by decide⟩
  · show _ < _
    decide

example : block sample = [99, 100, 0, 6, 0, 47, 6, 99, 100, 47, 0, 97, 32, 98, 32, 0] := by decide +kernel

example : ((Spec.run false {} trace).map fun s => (s.lookup 100, s.lookup 200, s.lookup 300, s.lookup 400)) =
    some ((100, { displayOffset := 7, descriptionOffset := 11, type := 6, appendChar := 47, flags := 6 }),
      (200, { displayOffset := 7, descriptionOffset := 8, type := 1, appendChar := 0, flags := 0 }),
      (300, { type := 7, appendChar := 32, flags := 1 }), (0, { type := 1 })) := by decide +kernel

example : Alive trace 0 1 memory [100, 200, 0] ∧ Listed [100, 200, 0] 200 := by
  refine ⟨⟨rfl, by decide, ?_⟩, by decide, [100], [0], rfl, by decide⟩
  intro j hj h hc
  unfold trace at hc
  match j, hj with
  | 1, _ => simp at hc
  | 2, _ => simp at hc
  | 3, _ => simp at hc
  | j + 4, _ => simp at hc

example : Disciplined trace := by
  intro j h owner ms hj h0 i heap ms' ha
  unfold trace at hj
  match j with
  | 0 => simp [Spec.Alive] at ha
  | 1 =>
    simp only [List.getElem?_cons_succ, List.getElem?_cons_zero, Option.some.injEq, Prod.mk.injEq, Op.create.injEq] at hj
    obtain ⟨-, rfl, -⟩ := hj
    obtain ⟨h1, -, -⟩ := ha
    match i with
    | 0 => simp [trace] at h1
    | i + 1 => simp [trace] at h1
  | 2 => simp at hj
  | 3 => simp at hj
  | j + 4 => simp at hj

example : One trace (some (300, 7, 32, 1)) := by
  refine .set (i := 2) (h := memory) rfl fun j hj h' => ?_
  unfold trace
  match j, hj with
  | 3, _ => simp
  | j + 4, _ => simp

/-- A long match, for C21_long, of any length. -/
example (n : Nat) (h : 0 < n) : Spec.Packable { sample with text := some (List.replicate n 97) } := by
  refine ⟨fun h' => ?_, by simp [sample]⟩
  have := congrArg (fun o : Option (List Nat) => (o.getD []).length) h'
  simp only [Option.getD_some, List.length_replicate, List.length_nil] at this
  omega

end Clink.Lookaside
