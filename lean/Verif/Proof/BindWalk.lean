import Verif.Proof.Bind

/-! Lemmas about key bindings: what is found for typed keys. -/

namespace Clink.Bind

open Spec

variable {b : Binder} {gs : List Nat} {cs : List (Nat × List Tok)} {bs : List Bound} {path : Path}

theorem plain_append (l1 l2 : List Nat) : plain (l1 ++ l2) = plain l1 ++ plain l2 := by simp [plain]

theorem plain_concat (l : List Nat) (k : Nat) : plain (l ++ [k]) = plain l ++ [⟨k, false⟩] := by simp [plain]

theorem plain_length (l : List Nat) : (plain l).length = l.length := by simp [plain]

theorem plain_inj {l1 l2 : List Nat} (h : plain l1 = plain l2) : l1 = l2 := by
  have := congrArg (List.map Tok.key) h
  simpa [plain, Function.comp_def] using this

/-- A node that is on the way of a call. -/
theorem call_of {i g : Nat} {c : List Tok} {t : Tok} (hi : Inv b gs cs bs path) (h : path i = some (g, c ++ [t])) : ∃ r, (g, c ++ t :: r) ∈ cs := by
  rcases hi.paths i g _ h with h | ⟨c', h1, r', rfl⟩
  · simp at h
  · exact ⟨r', by simpa using h1⟩

/-- A child that fits a key is the child for it. -/
theorem kid_key (hi : Inv b gs cs bs path) {g i k : Nat} {c : List Tok} {t : Tok} (h : path i = some (g, c ++ [t])) (ha : t.star = true → isDigit k = false ∧ k ≠ 42) (hk : t.key = k) :
    t = ⟨k, false⟩ := by
  obtain ⟨r, hr⟩ := call_of hi h
  cases hs : t.star with
  | true =>
    have := hi.stars _ hr t (by simp) hs
    exact absurd (by rw [← hk]; exact this) (ha hs).2
  | false =>
    cases t
    simp only at hs hk
    rw [hs, hk]

/-- `find_child` for a typed key. -/
theorem findChild_typed (hi : Inv b gs cs bs path) {p g k : Nat} {ks : List Nat} (hp : Prim path p g (plain ks))
    (ha : ∀ t r, (g, plain ks ++ t :: r) ∈ cs → t.star = true → isDigit k = false ∧ k ≠ 42) :
    (∃ i, b.findChild p k = some i ∧ Prim path i g (plain (ks ++ [k]))) ∨ (b.findChild p k = some 0 ∧ ∀ i, path i ≠ some (g, plain (ks ++ [k]))) := by
  rw [plain_concat]
  refine findChild_eq hi.rep hp ?_ ?_ ?_
  · rcases List.eq_nil_or_concat ks with rfl | ⟨l, x, rfl⟩
    · have := ((hi.rep.roots p g).1 hp.1)
      rw [this.1, (hi.rep.root g this.2).2.2]
      rfl
    · rw [List.concat_eq_append, plain_concat] at hp
      rw [hi.rep.prim p g _ _ hp]
      rfl
  · intro i t h hh
    obtain ⟨r, hr⟩ := call_of hi h
    rw [hit, hi.rep.keys i g _ t h, Bool.or_eq_true, decide_eq_true_eq, Bool.and_eq_true] at hh
    rcases hh with hh | ⟨h1, h2⟩
    · exact kid_key hi h (ha t r hr) hh
    · exfalso
      have hpr : Prim path i g (plain ks ++ [t]) := by
        apply Classical.byContradiction
        intro hn
        rw [(hi.rep.dup i g _ h hn).1] at h1
        simp at h1
      rw [hi.rep.prim i g _ t hpr] at h1
      rw [(ha t r hr h1).1] at h2
      simp at h2
  · intro i h
    rw [hit, hi.rep.keys i g _ _ h.1]
    simp

/-- There is a child if there are longer chords. -/
theorem child_zero (hi : Inv b gs cs bs path) {p g : Nat} {c : List Tok} (hp : Prim path p g c) : (b.nodes p).child = 0 ↔ ∀ i t, path i ≠ some (g, c ++ [t]) := by
  have hchain := hi.rep.chain p g c hp
  constructor
  · intro h i t ht
    have hmem : i ∈ kids b.nextNode path g c := mem_kids.2 ⟨(hi.rep.alloc _ _ ht).2, t, ht⟩
    have hne : kids b.nextNode path g c ≠ [] := by intro he; rw [he] at hmem; simp at hmem
    rw [if_neg hne] at hchain
    obtain ⟨x, l, hl⟩ := List.exists_cons_of_ne_nil hne
    rw [hl] at hchain
    have hx : x ∈ kids b.nextNode path g c := by rw [hl]; simp
    have h1 := kid_gt hi.rep hp hx
    have h2 : (b.nodes p).child = x := hchain.1
    omega
  · intro h
    rw [if_pos] at hchain
    · exact hchain
    · apply List.eq_nil_iff_forall_not_mem.2
      intro i hm
      obtain ⟨-, t, ht⟩ := mem_kids.1 hm
      exact h i t ht

/-- Nodes come with nodes for what their chords begin with. -/
theorem path_prefix (hi : Inv b gs cs bs path) {g : Nat} {c : List Tok} (l : List Tok) {i : Nat} (h : path i = some (g, c ++ l)) : ∃ p, Prim path p g c := by
  obtain ⟨n, hn⟩ : ∃ n, n = l.length := ⟨_, rfl⟩
  induction n generalizing i l with
  | zero =>
    have := List.length_eq_zero_iff.1 hn.symm
    subst this
    rw [List.append_nil] at h
    obtain ⟨p, hp, -⟩ := prim_exists h
    exact ⟨p, hp⟩
  | succ n ih =>
    rcases List.eq_nil_or_concat l with rfl | ⟨l, t, rfl⟩
    · simp at hn
    · rw [List.concat_eq_append, ← List.append_assoc] at h
      obtain ⟨p, hp, -⟩ := hi.rep.parent i g _ t h
      exact ih l hp.1 (by simpa using hn)

theorem bound_path (hi : Inv b gs cs bs path) {x : Bound} (hx : x ∈ bs) : ∃ i, path i = some (x.group, x.chord) ∧ (b.nodes i).bound = true := by
  have h := hi.binds x.group x.chord
  have h1 : (some x.module, x.id) ∈ (bs.filter fun y => decide (y.group = x.group ∧ y.chord = x.chord)).map fun x => (some x.module, x.id) :=
    List.mem_map.2 ⟨x, List.mem_filter.2 ⟨hx, by simp⟩, rfl⟩
  rw [← h] at h1
  obtain ⟨i, h2, -⟩ := List.mem_map.1 h1
  have h3 := (List.mem_filter.1 h2).2
  rw [Bool.and_eq_true, decide_eq_true_eq] at h3
  exact ⟨i, h3⟩

/-! Where the keys lead to -/

/-- The node for as many of the keys as possible. -/
def Longest (path : Path) (g : Nat) (ks : List Nat) (p : Nat) : Prop :=
  ∃ n, n ≤ ks.length ∧ Prim path p g (plain (ks.take n)) ∧ ∀ m i, n < m → m ≤ ks.length → path i ≠ some (g, plain (ks.take m))

theorem stepImpl_typed (hi : Inv b gs cs bs path) {r : Resolver} {p g k : Nat} {ks : List Nat} (hr : r.node = p) (hpend : r.pendingParam = false) (hp : Prim path p g (plain ks))
    (ha : ∀ t l, (g, plain ks ++ t :: l) ∈ cs → t.star = true → isDigit k = false ∧ k ≠ 42) :
    (∃ i, r.stepImpl b k = some ({ r with node := i }, decide ((b.nodes i).child = 0)) ∧ Prim path i g (plain (ks ++ [k]))) ∨
    (r.stepImpl b k = some (r, true) ∧ ∀ i, path i ≠ some (g, plain (ks ++ [k]))) := by
  unfold Resolver.stepImpl
  rw [hr]
  rcases findChild_typed hi hp ha with ⟨i, h1, h2⟩ | ⟨h1, h2⟩
  · left
    refine ⟨i, ?_, h2⟩
    have h3 : (b.nodes i).hasParams = false := by
      rw [plain_concat] at h2
      rw [hi.rep.prim i g _ _ h2]
    rw [h1, Option.map_some, if_neg (inv_pos hi h2.1)]
    simp only [h3, hpend, Bool.false_eq_true, if_false]
  · right
    refine ⟨?_, h2⟩
    rw [h1, Option.map_some, if_pos rfl]

theorem take_snoc_le (ks : List Nat) (k m : Nat) (h : m ≤ ks.length) : (ks ++ [k]).take m = ks.take m := List.take_append_of_le_length h

/-- Typed keys. -/
theorem typed_spec (hi : Inv b gs cs bs path) {g : Nat} (hg : g ∈ gs) {ks : List Nat} {r : Resolver} {stop : Bool} (ht : Typed b (.start g) ks r stop) (hlen : ks.length ≤ 16) (ha : AvoidsParams cs g ks) :
    ∃ p, r = { Resolver.start g with node := p, keys := ks } ∧ Longest path g ks p ∧ (stop = false → Prim path p g (plain ks) ∧ (ks ≠ [] → (b.nodes p).child ≠ 0)) := by
  generalize hs : Resolver.start g = s at ht
  induction ht with
  | nil =>
    subst hs
    have hp := root_prim hi.rep hg
    exact ⟨g, rfl, ⟨0, by simp, hp, fun m i h1 h2 => by simp at h2; omega⟩, fun _ => ⟨hp, fun h => absurd rfl h⟩⟩
  | @snoc ks k r1 r2 stop h hs' ih =>
    subst hs
    have ha' : AvoidsParams cs g ks := fun p x ks' t l he => ha p x (ks' ++ [k]) t l (by rw [he]; simp)
    obtain ⟨p, h1, -, h3⟩ := ih (by simp at hlen; omega) ha'
    obtain ⟨hp, -⟩ := h3 rfl
    subst h1
    rw [Resolver.step, if_neg (by simp at hlen ⊢; omega)] at hs'
    rcases stepImpl_typed (r := { Resolver.start g with node := p, keys := ks ++ [k] }) hi rfl rfl hp (fun t l => ha ks k [] t l rfl) with ⟨i, h1, h2⟩ | ⟨h1, h2⟩
    · rw [h1] at hs'
      cases hs'
      refine ⟨i, rfl, ⟨(ks ++ [k]).length, Nat.le_refl _, by rw [List.take_length]; exact h2, fun m i h1 h2 => by omega⟩, fun he => ⟨h2, fun _ => by simpa using he⟩⟩
    · rw [h1] at hs'
      cases hs'
      refine ⟨p, rfl, ⟨ks.length, by simp, by rw [take_snoc_le ks k _ (Nat.le_refl _), List.take_length]; exact hp, fun m i h3 h4 => ?_⟩, fun he => by simp at he⟩
      have : m = (ks ++ [k]).length := by simp at h4 ⊢; omega
      rw [this, List.take_length]
      exact h2 i

/-- Remaining keys. -/
theorem feed_spec (hi : Inv b gs cs bs path) {g : Nat} (rest : List Nat) {ks : List Nat} {r : Resolver} {p : Nat} (hr : r.node = p) (hpend : r.pendingParam = false) (hp : Prim path p g (plain ks))
    (ha : AvoidsParams cs g (ks ++ rest)) : ∃ q, r.feed b rest = some { r with node := q } ∧ Longest path g (ks ++ rest) q := by
  induction rest generalizing ks r p with
  | nil =>
    refine ⟨p, ?_, ?_⟩
    · subst hr; rfl
    · rw [List.append_nil]
      exact ⟨ks.length, Nat.le_refl _, by rw [List.take_length]; exact hp, fun m i h1 h2 => by omega⟩
  | cons k rest ih =>
    rw [Resolver.feed]
    rcases stepImpl_typed hi hr hpend hp (fun t l => ha ks k rest t l rfl) with ⟨i, h1, h2⟩ | ⟨h1, h2⟩
    · rw [h1, Option.bind_some]
      simp only
      by_cases hc : (b.nodes i).child = 0
      · rw [if_pos (by simpa using hc)]
        refine ⟨i, rfl, ks.length + 1, by simp, ?_, ?_⟩
        · rw [show ks ++ k :: rest = (ks ++ [k]) ++ rest from by simp, show ks.length + 1 = (ks ++ [k]).length from by simp, List.take_left]
          exact h2
        · intro m j h3 h4 h5
          rw [show ks ++ k :: rest = (ks ++ [k]) ++ rest from by simp, List.take_append, List.take_of_length_le (by simp; omega)] at h5
          have hx : m - (ks ++ [k]).length ≠ 0 := by simp; omega
          simp only [List.length_append, List.length_cons] at h4
          cases rest with
          | nil => simp at h4; omega
          | cons y rest =>
            obtain ⟨z, hz⟩ : ∃ z, m - (ks ++ [k]).length = z + 1 := ⟨m - (ks ++ [k]).length - 1, by omega⟩
            rw [hz, List.take_succ_cons, plain_append] at h5
            have h6 : path j = some (g, (plain (ks ++ [k]) ++ [⟨y, false⟩]) ++ plain (rest.take z)) := by
              rw [h5]; simp [plain]
            obtain ⟨q, hq⟩ := path_prefix hi _ h6
            exact (child_zero hi h2).1 hc q _ hq.1
      · rw [if_neg (by simpa using hc)]
        obtain ⟨q, h3, h4⟩ := ih (r := { r with node := i }) rfl hpend h2 (by simpa using ha)
        refine ⟨q, h3, ?_⟩
        simpa using h4
    · rw [h1, Option.bind_some]
      simp only [if_true]
      refine ⟨p, by subst hr; rfl, ks.length, by simp, by rw [List.take_left]; exact hp, ?_⟩
      intro m j h3 h4 h5
      rw [show ks ++ k :: rest = (ks ++ [k]) ++ rest from by simp, List.take_append, List.take_of_length_le (by simp; omega), plain_append] at h5
      obtain ⟨q, hq⟩ := path_prefix hi _ h5
      exact h2 q hq.1

/-! The search -/

theorem links_append {p q : Nat} (l1 : List Nat) {l2 : List Nat} {s : Nat} (h1 : Links b p s l1) (h2 : Links b q p l2) : Links b q s (l1 ++ l2) := by
  induction l1 generalizing s with
  | nil =>
    rw [Links] at h1
    subst h1
    exact h2
  | cons i l1 ih => exact ⟨h1.1, ih h1.2⟩

/-- The nodes that are bindings for the first `n` keys. -/
def hits (b : Binder) (path : Path) (g : Nat) (ks : List Nat) (n : Nat) : List Nat :=
  (List.range b.nextNode).filter fun i => (decide (path i = some (g, plain (ks.take n))) && (b.nodes i).bound) && decide (Reportable (plain (ks.take n)))

/-- Whether a node is a binding for what was typed. -/
def good (b : Binder) (path : Path) (g : Nat) (ks : List Nat) (i : Nat) : Bool :=
  (b.nodes i).bound && match path i with
    | some (g', c) => decide (g' = g ∧ c = plain (ks.take c.length) ∧ Reportable c)
    | none => false

theorem good_iff {g : Nat} {ks : List Nat} {i : Nat} {c : List Tok} (h : path i = some (g, c)) : good b path g ks i = ((b.nodes i).bound && decide (c = plain (ks.take c.length) ∧ Reportable c)) := by
  rw [good, h]
  simp

theorem fits_good (hi : Inv b gs cs bs path) (hz : NonZero cs) {g i : Nat} {ks : List Nat} {c0 : List Tok} {t : Tok} {n : Nat} (hc0 : c0 = plain (ks.take n)) (hn : n < ks.length)
    (h : path i = some (g, c0 ++ [t])) (ha : AvoidsParams cs g ks) (hb : ∀ k ∈ ks, k < 256) {r : Resolver} (hpar : r.params.len = 0) (hk : r.keys.drop r.tail = ks)
    (h16 : r.keys.length ≤ 16) :
    r.fits (b.nodes i) = some (good b path g ks i) := by
  have hlen : c0.length = n := by rw [hc0, plain_length, List.length_take]; omega
  rw [good_iff h]
  unfold Resolver.fits
  cases hbd : (b.nodes i).bound with
  | false => rfl
  | true =>
    obtain ⟨l, hcall⟩ := call_of hi h
    have hkey := hi.rep.keys i g c0 t h
    have hnz : t.key ≠ 0 := hz _ hcall t (by simp)
    have hd := hi.depth i g _ h hbd
    have hlen2 : (c0 ++ [t]).length = n + 1 := by simp [hlen]
    rw [hlen2] at hd
    simp only [Bool.not_true, Bool.false_eq_true, if_false, hkey, hnz, hd, hpar, Bool.true_and, hlen2]
    have hr1 : Reportable (c0 ++ [t]) ↔ n + 1 < 16 ∧ t.key < 128 := by
      rw [Reportable, hlen2]
      simp
    have hkl : ks.length = r.keys.length - r.tail := by rw [← hk, List.length_drop]
    rcases Nat.lt_or_ge (n + 1) 16 with hlt | hge
    · have hx : ((r.tail : Int) + ((n + 1) % 16 : Nat) + 0 - 1) = ((r.tail + n : Nat) : Int) := by rw [Nat.mod_eq_of_lt hlt]; omega
      rw [hx, if_neg (by omega), Int.toNat_natCast, ← List.getElem?_drop, hk, List.getElem?_eq_getElem hn, Option.map_some]
      congr 1
      rw [decide_eq_decide, hr1]
      have hmem : ks[n] < 256 := hb _ (List.getElem_mem hn)
      have hdec : ks = ks.take n ++ ks[n] :: ks.drop (n + 1) := by rw [← List.drop_eq_getElem_cons hn, List.take_append_drop]
      have htk : ks.take (n + 1) = ks.take n ++ [ks[n]] := by rw [List.take_succ, List.getElem?_eq_getElem hn]; rfl
      rw [htk, plain_concat, ← hc0]
      constructor
      · intro h1
        unfold char at h1
        have h2 : t.key = ks[n] ∧ t.key < 128 := by
          split at h1 <;> omega
        refine ⟨?_, hlt, h2.2⟩
        rw [kid_key hi h (ha _ _ _ t l hdec (by rw [← hc0]; exact hcall)) h2.1]
      · rintro ⟨h1, -, h2⟩
        have h3 : t = ⟨ks[n], false⟩ := by simpa using h1
        rw [h3] at h2 ⊢
        simp only at h2
        unfold char
        rw [if_pos h2]
    · have : n + 1 = 16 ∧ r.tail = 0 := by omega
      have hx : ((r.tail : Int) + ((n + 1) % 16 : Nat) + 0 - 1) = -1 := by rw [this.1, this.2]; rfl
      rw [hx, if_pos (by omega)]
      congr 1
      rw [eq_comm, decide_eq_false_iff_not, hr1]
      omega

/-- The nodes that are visited. -/
theorem walk (hi : Inv b gs cs bs path) (hz : NonZero cs) {g : Nat} {ks : List Nat} (ha : AvoidsParams cs g ks) (hb : ∀ k ∈ ks, k < 256) {r : Resolver} (hpar : r.params.len = 0)
    (hk : r.keys.drop r.tail = ks) (h16 : r.keys.length ≤ 16) (n : Nat) (hn : n ≤ ks.length) {p : Nat} (hp : Prim path p g (plain (ks.take n))) :
    ∃ L, Links b 0 p L ∧ L.length ≤ (n + 1) * 512 ∧ (∀ i ∈ L, i ≠ 0 ∧ r.fits (b.nodes i) = some (good b path g ks i)) ∧
      L.filter (good b path g ks) = (List.range (n + 1)).reverse.flatMap (hits b path g ks) := by
  induction n generalizing p with
  | zero =>
    rw [List.take_zero] at hp
    obtain ⟨rfl, hg⟩ := (hi.rep.roots p g).1 hp.1
    obtain ⟨h1, h2, h3⟩ := hi.rep.root p hg
    have hrep : Reportable (plain []) := by decide
    have hgood : good b path p ks p = (b.nodes p).bound := by
      rw [good_iff hp.1]
      have : (plain [] = plain (ks.take (plain []).length) ∧ Reportable (plain [])) := ⟨by simp [plain], hrep⟩
      rw [decide_eq_true this, Bool.and_true]
    refine ⟨[p], ⟨rfl, h2⟩, by simp, ?_, ?_⟩
    · intro i hmem
      rw [List.mem_singleton] at hmem
      subst hmem
      refine ⟨inv_pos hi hp.1, ?_⟩
      rw [hgood]
      unfold Resolver.fits
      cases hbd : (b.nodes i).bound <;> simp [h1]
    · have hh : hits b path p ks 0 = if (b.nodes p).bound then [p] else [] := by
        unfold hits
        rw [List.take_zero]
        have hlt := (hi.rep.alloc p _ hp.1).2
        cases hbd : (b.nodes p).bound with
        | false =>
          rw [if_neg (by simp)]
          apply List.filter_eq_nil_iff.2
          intro i _ h
          simp only [Bool.and_eq_true, decide_eq_true_eq] at h
          have := ((hi.rep.roots i p).1 h.1.1).1
          subst this
          rw [hbd] at h
          simp at h
        | true =>
          rw [if_pos rfl, range_filter_snoc (P := fun _ => false) (i := p) b.nextNode hlt (by simp)]
          · rw [List.filter_eq_nil_iff.2 (by simp)]
            rfl
          · intro j
            rw [Bool.false_or]
            by_cases hj : j = p
            · subst hj
              have := hp.1
              rw [this, hbd, decide_eq_true hrep]
              simp
            · have : path j ≠ some (p, plain []) := fun h => hj ((hi.rep.roots j p).1 h).1
              simp [this, hj]
      have h4 : (List.range (0 + 1)).reverse.flatMap (hits b path p ks) = hits b path p ks 0 := by
        rw [show List.range (0 + 1) = [0] from rfl]
        simp
      rw [h4, hh, List.filter_cons, hgood]
      rfl
  | succ n ih =>
    have hlt : n < ks.length := by omega
    have htk : ks.take (n + 1) = ks.take n ++ [ks[n]] := by rw [List.take_succ, List.getElem?_eq_getElem hlt]; rfl
    have hp' := hp
    rw [htk, plain_concat] at hp'
    obtain ⟨p0, hp0, -⟩ := hi.rep.parent p g _ _ hp'.1
    obtain ⟨L0, h1, h2, h3, h4⟩ := ih (by omega) hp0
    have hmem : p ∈ kids b.nextNode path g (plain (ks.take n)) := mem_kids.2 ⟨(hi.rep.alloc _ _ hp'.1).2, _, hp'.1⟩
    obtain ⟨l1, l2, hl⟩ := List.append_of_mem hmem
    have hchain := hi.rep.chain p0 g _ hp0
    rw [if_neg (by intro he; rw [he] at hmem; simp at hmem), hl] at hchain
    have hlen : (p :: l2).length ≤ 512 := by
      have h5 := kids_length b.nextNode path g (plain (ks.take n))
      have h6 := hi.rep.next
      rw [hl] at h5
      simp at h5 ⊢
      omega
    have hkid : ∀ i ∈ kids b.nextNode path g (plain (ks.take n)), ∃ t, path i = some (g, plain (ks.take n) ++ [t]) := fun i hm => (mem_kids.1 hm).2
    refine ⟨p :: l2 ++ L0, ?_, ?_, ?_, ?_⟩
    · exact links_append (p :: l2) ⟨rfl, links_drop l1 hchain⟩ h1
    · rw [List.length_append]
      omega
    · intro i hm
      rcases List.mem_append.1 hm with h5 | h5
      · have h6 : i ∈ kids b.nextNode path g (plain (ks.take n)) := by rw [hl]; exact List.mem_append_right _ h5
        obtain ⟨t, ht⟩ := hkid i h6
        exact ⟨inv_pos hi ht, fits_good hi hz rfl hlt ht ha hb hpar hk h16⟩
      · exact h3 i h5
    · rw [List.range_succ, List.reverse_append, List.reverse_singleton, List.singleton_append, List.flatMap_cons, List.filter_append, h4]
      congr 1
      have hnl : (plain (ks.take n)).length = n := by rw [plain_length, List.length_take]; omega
      have hg1 : l1.filter (good b path g ks) = [] := by
        apply List.filter_eq_nil_iff.2
        intro i hm hgd
        obtain ⟨t, ht⟩ := hkid i (by rw [hl]; exact List.mem_append_left _ hm)
        rw [good_iff ht, Bool.and_eq_true, decide_eq_true_eq] at hgd
        have h5 := hgd.2.1
        rw [List.length_append, hnl, List.length_singleton] at h5
        rw [h5] at ht
        have hs := kids_sorted b.nextNode path g (plain (ks.take n))
        rw [hl] at hs
        have := (List.pairwise_append.1 hs).2.2 i hm p (by simp)
        exact hp.2 i this ht
      have hg2 : (p :: l2).filter (good b path g ks) = (kids b.nextNode path g (plain (ks.take n))).filter (good b path g ks) := by
        rw [hl, List.filter_append, hg1, List.nil_append]
      rw [hg2, kids, List.filter_filter]
      unfold hits
      apply range_filter_congr
      intro i _
      rw [Bool.eq_iff_iff]
      simp only [Bool.and_eq_true, decide_eq_true_eq, isKid_iff]
      constructor
      · rintro ⟨h5, t, ht⟩
        rw [good_iff ht, Bool.and_eq_true, decide_eq_true_eq] at h5
        obtain ⟨h6, h7, h8⟩ := h5
        rw [List.length_append, hnl, List.length_singleton] at h7
        rw [h7] at ht h8
        exact ⟨⟨ht, h6⟩, h8⟩
      · rintro ⟨⟨ht, h6⟩, h8⟩
        refine ⟨?_, ⟨ks[n], false⟩, ?_⟩
        · rw [good_iff ht, h6]
          have h9 : (plain (ks.take (n + 1))).length = n + 1 := by rw [plain_length, List.length_take]; omega
          rw [h9]
          simpa using h8
        · rw [ht, htk, plain_concat]

/-- A binding that is reported. -/
def report (b : Binder) (i : Nat) : Binding := ⟨(b.nodes i).module, (b.nodes i).id, max 1 (b.nodes i).depth, {}⟩

theorem search_links {F : Nat → Bool} (L : List Nat) {r : Resolver} {s f : Nat} (hl : Links b 0 s L) (hf : L.length < f) (hfit : ∀ i ∈ L, i ≠ 0 ∧ r.fits (b.nodes i) = some (F i)) (hpar : r.params = {}) :
    (L.filter F = [] ∧ r.search b f s = some (r.reset, none)) ∨
    ∃ i l1 l2, L = l1 ++ i :: l2 ∧ L.filter F = i :: l2.filter F ∧ r.search b f s = some ({ r with node := (b.nodes i).next }, some (report b i)) := by
  induction L generalizing s f with
  | nil =>
    rw [Links] at hl
    obtain ⟨f, rfl⟩ : ∃ m, f = m + 1 := ⟨f - 1, by simp at hf; omega⟩
    left
    refine ⟨rfl, ?_⟩
    rw [Resolver.search, if_pos hl]
  | cons i L ih =>
    obtain ⟨f, rfl⟩ : ∃ m, f = m + 1 := ⟨f - 1, by simp at hf; omega⟩
    obtain ⟨rfl, hl⟩ := hl
    obtain ⟨h1, h2⟩ := hfit s (by simp)
    rw [Resolver.search, if_neg h1]
    simp only
    rw [h2, Option.bind_some]
    cases hF : F s with
    | true =>
      right
      refine ⟨s, [], L, rfl, by rw [List.filter_cons, hF]; rfl, ?_⟩
      rw [if_pos rfl, hpar]
      simp [report]
    | false =>
      rw [if_neg (by simp)]
      have hft : (s :: L).filter F = L.filter F := by rw [List.filter_cons, hF]; rfl
      rw [hft]
      rcases ih hl (by simp at hf; omega) (fun i hi => hfit i (List.mem_cons_of_mem _ hi)) with ⟨e1, e2⟩ | ⟨i, l1, l2, e1, e2, e3⟩
      · exact .inl ⟨e1, e2⟩
      · exact .inr ⟨i, s :: l1, l2, by rw [e1]; rfl, e2, e3⟩

theorem passes_links {F : Nat → Bool} (n : Nat) {L : List Nat} (hn : L.length ≤ n) {r : Resolver} (hl : Links b 0 r.node L) (hf : L.length < fuel) (hfit : ∀ i ∈ L, i ≠ 0 ∧ r.fits (b.nodes i) = some (F i))
    (hpar : r.params = {}) (hpend : r.pendingInput = false) : Passes b r ((L.filter F).map (report b)) := by
  induction n generalizing L r with
  | zero =>
    have := List.length_eq_zero_iff.1 (Nat.le_zero.1 hn)
    subst this
    rcases search_links [] hl hf hfit hpar with ⟨-, e⟩ | ⟨i, l1, l2, e1, -, -⟩
    · exact .nil (by rw [Resolver.next, hpend, if_neg (by simp)]; exact e)
    · simp at e1
  | succ n ih =>
    rcases search_links L hl hf hfit hpar with ⟨e1, e⟩ | ⟨i, l1, l2, e1, e2, e3⟩
    · rw [e1]
      exact .nil (by rw [Resolver.next, hpend, if_neg (by simp)]; exact e)
    · rw [e2, List.map_cons]
      refine .cons (by rw [Resolver.next, hpend, if_neg (by simp)]; exact e3) ?_
      rw [e1] at hl hn hf hfit
      simp only [List.length_append, List.length_cons] at hn hf
      exact ih (by omega) (links_drop l1 hl) (by omega) (fun j hj => hfit j (by simp [hj])) hpar hpend

theorem passes_unique {r : Resolver} {xs ys : List Binding} (h1 : Passes b r xs) (h2 : Passes b r ys) : xs = ys := by
  induction h1 generalizing ys with
  | nil h =>
    cases h2 with
    | nil => rfl
    | cons h' => rw [h] at h'; simp at h'
  | cons h _ ih =>
    cases h2 with
    | nil h' => rw [h] at h'; simp at h'
    | cons h' h2' =>
      rw [h] at h'
      cases h'
      rw [ih h2']

theorem claims_unique {r : Resolver} {xs ys : List Binding} (h1 : Claims b r xs) (h2 : Claims b r ys) : xs = ys := by
  induction h1 generalizing ys with
  | nil h =>
    cases h2 with
    | nil => rfl
    | cons h' => rw [h] at h'; simp at h'
  | cons h _ ih =>
    cases h2 with
    | nil h' => rw [h] at h'; simp at h'
    | cons h' h2' =>
      rw [h] at h'
      cases h'
      rw [ih h2']

theorem hits_seen (hi : Inv b gs cs bs path) (g : Nat) (ks : List Nat) (m : Nat) : (hits b path g ks m).map (fun i => seen b (report b i)) = (matching bs g ks m).map expected := by
  unfold hits matching
  by_cases hrep : Reportable (plain (ks.take m))
  · have h1 : ∀ i, ((decide (path i = some (g, plain (ks.take m))) && (b.nodes i).bound) && decide (Reportable (plain (ks.take m)))) = (decide (path i = some (g, plain (ks.take m))) && (b.nodes i).bound) := by
      intro i
      rw [decide_eq_true hrep, Bool.and_true]
    have h2 : ∀ x : Bound, decide (x.group = g ∧ x.chord = plain (ks.take m) ∧ Reportable x.chord) = decide (x.group = g ∧ x.chord = plain (ks.take m)) := by
      intro x
      rw [decide_eq_decide]
      constructor
      · rintro ⟨h1, h2, -⟩; exact ⟨h1, h2⟩
      · rintro ⟨h1, h2⟩; exact ⟨h1, h2, by rw [h2]; exact hrep⟩
    rw [List.filter_congr (fun i _ => h1 i), List.filter_congr (fun x _ => h2 x)]
    have h3 := congrArg (List.map fun y : Option Nat × Nat => (y.1, y.2, max 1 (plain (ks.take m)).length, ({} : Params))) (hi.binds g (plain (ks.take m)))
    rw [List.map_map, List.map_map] at h3
    refine Eq.trans (List.map_congr_left fun i hm => ?_) (h3.trans (List.map_congr_left fun x hm => ?_))
    · have h4 := (List.mem_filter.1 hm).2
      rw [Bool.and_eq_true, decide_eq_true_eq] at h4
      have hd := hi.depth i g _ h4.1 h4.2
      rw [Nat.mod_eq_of_lt hrep.1] at hd
      simp only [seen, report, Function.comp_apply, hd]
    · have h4 := (List.mem_filter.1 hm).2
      rw [decide_eq_true_eq] at h4
      simp only [Function.comp_apply, expected, h4.2]
  · rw [List.filter_eq_nil_iff.2, List.filter_eq_nil_iff.2]
    · rfl
    · intro x _ h
      rw [decide_eq_true_eq] at h
      exact hrep (by rw [← h.2.1]; exact h.2.2)
    · intro i _ h
      rw [Bool.and_eq_true, decide_eq_true_eq] at h
      exact hrep h.2

theorem flatMap_range_reverse {α : Type} (f : Nat → List α) (n m : Nat) (hle : n ≤ m) (h : ∀ k, n < k → k ≤ m → f k = []) :
    (List.range (m + 1)).reverse.flatMap f = (List.range (n + 1)).reverse.flatMap f := by
  induction m with
  | zero =>
    have : n = 0 := by omega
    rw [this]
  | succ m ih =>
    by_cases hn : n = m + 1
    · rw [hn]
    · rw [List.range_succ, List.reverse_append, List.reverse_singleton, List.singleton_append, List.flatMap_cons, h (m + 1) (by omega) (Nat.le_refl _), List.nil_append]
      exact ih (by omega) fun k h1 h2 => h k h1 (by omega)

theorem map_flatMap_congr {α β γ : Type} {f : Nat → List α} {g : Nat → List β} {u : α → γ} {v : β → γ} (l : List Nat) (h : ∀ n, (f n).map u = (g n).map v) : (l.flatMap f).map u = (l.flatMap g).map v := by
  induction l with
  | nil => rfl
  | cons n l ih => rw [List.flatMap_cons, List.flatMap_cons, List.map_append, List.map_append, h n, ih]

/-- The nodes that are visited from where the keys lead to. -/
theorem walk_longest (hi : Inv b gs cs bs path) (hz : NonZero cs) {g : Nat} {ks : List Nat} (ha : AvoidsParams cs g ks) (hb : ∀ k ∈ ks, k < 256) {r : Resolver} (hpar : r.params = {})
    (hk : r.keys.drop r.tail = ks) (h16 : r.keys.length ≤ 16) {p : Nat} (hp : Longest path g ks p) :
    ∃ L, Links b 0 p L ∧ L.length < fuel ∧ (∀ i ∈ L, i ≠ 0 ∧ r.fits (b.nodes i) = some (good b path g ks i)) ∧
      (L.filter (good b path g ks)).map (fun i => seen b (report b i)) = (candidates bs g ks).map expected := by
  obtain ⟨n, hn, hp, hmax⟩ := hp
  obtain ⟨L, h1, h2, h3, h4⟩ := walk hi hz ha hb (by rw [hpar]) hk h16 n hn hp
  have hkl : ks.length ≤ 16 := by rw [← hk, List.length_drop]; omega
  refine ⟨L, h1, ?_, h3, ?_⟩
  · have : (n + 1) * 512 ≤ 17 * 512 := Nat.mul_le_mul_right _ (by omega)
    have h6 : fuel = 512 * 513 := rfl
    omega
  · rw [h4, candidates, ← flatMap_range_reverse (hits b path g ks) n ks.length hn]
    · exact map_flatMap_congr _ fun m => hits_seen hi g ks m
    · intro k h5 h6
      apply List.filter_eq_nil_iff.2
      intro i _ h
      simp only [Bool.and_eq_true, decide_eq_true_eq] at h
      exact hmax k i h5 h6 h.1.1

theorem search_first (hi : Inv b gs cs bs path) (hz : NonZero cs) {g : Nat} {ks : List Nat} (ha : AvoidsParams cs g ks) (hb : ∀ k ∈ ks, k < 256) {r : Resolver} (hpar : r.params = {})
    (hk : r.keys.drop r.tail = ks) (h16 : r.keys.length ≤ 16) (hp : Longest path g ks r.node) :
    (candidates bs g ks = [] ∧ r.search b fuel r.node = some (r.reset, none)) ∨
    ∃ i x xs, candidates bs g ks = x :: xs ∧ seen b (report b i) = expected x ∧ r.search b fuel r.node = some ({ r with node := (b.nodes i).next }, some (report b i)) := by
  obtain ⟨L, h1, h2, h3, h4⟩ := walk_longest hi hz ha hb hpar hk h16 hp
  rcases search_links L h1 h2 h3 hpar with ⟨e1, e⟩ | ⟨i, l1, l2, e1, e2, e3⟩
  · left
    rw [e1] at h4
    exact ⟨by simpa using h4.symm, e⟩
  · right
    rw [e2, List.map_cons] at h4
    cases hc : candidates bs g ks with
    | nil => rw [hc] at h4; simp at h4
    | cons x xs =>
      rw [hc, List.map_cons, List.cons.injEq] at h4
      exact ⟨i, x, xs, rfl, h4.1, e3⟩

theorem cand_len {g : Nat} {ks : List Nat} {x : Bound} (h : x ∈ candidates bs g ks) : x.chord.length ≤ ks.length ∧ x ∈ bs := by
  rw [candidates, List.mem_flatMap] at h
  obtain ⟨n, -, h⟩ := h
  rw [matching, List.mem_filter, decide_eq_true_eq] at h
  refine ⟨?_, h.1⟩
  rw [h.2.2.1, plain_length, List.length_take]
  omega

theorem claims_pending (hi : Inv b gs cs bs path) (hz : NonZero cs) {g : Nat} (hg : g ∈ gs) (n : Nat) {ks : List Nat} (hn : ks.length ≤ n) (ha : ∀ m, AvoidsParams cs g (ks.drop m)) (hb : ∀ k ∈ ks, k < 256)
    {r : Resolver} (hpar : r.params = {}) (hpend : r.pendingInput = true) (hpp : r.pendingParam = false) (hgr : r.group = g) (hnode : r.node = g) (hk : r.keys.drop r.tail = ks) (h16 : r.keys.length ≤ 16)
    (htail : 1 ≤ r.tail) : ∃ xs ys, Claims b r xs ∧ Splits bs g ks ys ∧ xs.map (seen b) = ys.map expected := by
  have hkl : ks.length = r.keys.length - r.tail := by rw [← hk, List.length_drop]
  induction n generalizing ks r with
  | zero =>
    have h0 := List.length_eq_zero_iff.1 (Nat.le_zero.1 hn)
    refine ⟨[], [], .nil (r' := { r with pendingInput := false }.reset) ?_, .none (.inl h0), rfl⟩
    rw [Resolver.next, hpend, if_pos rfl]
    simp only
    rw [if_pos (.inl (by omega))]
  | succ n ih =>
    by_cases h0 : ks = []
    · refine ⟨[], [], .nil (r' := { r with pendingInput := false }.reset) ?_, .none (.inl h0), rfl⟩
      rw [Resolver.next, hpend, if_pos rfl]
      simp only
      rw [if_pos (.inl (by subst h0; simp at hkl; omega))]
    · have hpos : 0 < ks.length := List.length_pos_iff.2 h0
      have ha0 : AvoidsParams cs g ks := by simpa using ha 0
      obtain ⟨q, hq, hlong⟩ := feed_spec (r := { r with pendingInput := false }) (g := g) (ks := []) hi ks hnode hpp (root_prim hi.rep hg) (by simpa using ha0)
      have hnext : r.next b = ({ r with pendingInput := false, node := q } : Resolver).search b fuel q := by
        rw [Resolver.next, hpend, if_pos rfl]
        simp only
        rw [if_neg (by omega), hk, hq, Option.bind_some]
      rcases search_first (r := { r with pendingInput := false, node := q }) hi hz ha0 hb hpar hk h16 (by simpa using hlong) with ⟨e1, e2⟩ | ⟨i, x, xs, e1, e2, e3⟩
      · exact ⟨[], [], .nil (hnext.trans e2), .none (.inr e1), rfl⟩
      · have hlen : (report b i).len = max 1 x.chord.length := congrArg (fun y => y.2.2.1) e2
        have hle := (cand_len (by rw [e1]; simp) : x.chord.length ≤ ks.length ∧ _).1
        obtain ⟨us, vs, h1, h2, h3⟩ := ih (ks := ks.drop (max 1 x.chord.length))
          (r := ({ r with pendingInput := false, node := (b.nodes i).next } : Resolver).claim (report b i)) (by rw [List.length_drop]; omega) (fun m => by rw [List.drop_drop]; exact ha _)
          (fun k hm => hb k (List.mem_of_mem_drop hm)) hpar rfl hpp hgr hgr (by
            show r.keys.drop (r.tail + (report b i).len) = _
            rw [hlen, ← hk, List.drop_drop]) h16 (by show 1 ≤ r.tail + (report b i).len; omega) (by
            show _ = r.keys.length - (r.tail + (report b i).len)
            rw [List.length_drop, hlen]; omega)
        exact ⟨_, _, .cons (hnext.trans e3) h1, .cons h0 e1 h2, by rw [List.map_cons, List.map_cons, e2, h3]⟩

/-! Parameters -/

theorem typed_append {r r1 r2 : Resolver} {ks1 ks2 : List Nat} {stop : Bool} (h1 : Typed b r ks1 r1 false) (h2 : Typed b r1 ks2 r2 stop) : Typed b r (ks1 ++ ks2) r2 stop := by
  induction h2 with
  | nil => rw [List.append_nil]; exact h1
  | snoc h hs ih => rw [← List.append_assoc]; exact .snoc ih hs

/-- A digit is added. -/
def accf (a x : Nat) : Nat := (a * 10 % 65536 + (x + 65536 - 48)) % 65536

theorem accf_value (d : List Nat) (hd : ∀ x ∈ d, isDigit x = true) (a : Nat) : d.foldl accf (a % 65536) = d.foldl (fun n x => n * 10 + (x - 48)) a % 65536 := by
  induction d generalizing a with
  | nil => rfl
  | cons x d ih =>
    have hx := hd x (by simp)
    rw [isDigit, decide_eq_true_eq] at hx
    have h1 : accf (a % 65536) x = (a * 10 + (x - 48)) % 65536 := by
      unfold accf
      omega
    rw [List.foldl_cons, List.foldl_cons, ← ih (fun y hy => hd y (List.mem_cons_of_mem _ hy)), h1]

theorem acc_value (d : List Nat) (hd : ∀ x ∈ d, isDigit x = true) : d.foldl accf 0 = value d % 65536 := accf_value d hd 0

theorem digits_more {q : Nat} (hq : q ≠ 0) (hpar : (b.nodes q).hasParams = true) (hch : (b.nodes q).child ≠ 0) (n : Nat) {d : List Nat} (hn : d.length = n) (hd : ∀ x ∈ d, isDigit x = true)
    {r : Resolver} (hr : r.node = q) (hpend : r.pendingParam = true) (h16 : r.keys.length + d.length ≤ 16) :
    Typed b r d { r with accumulator := d.foldl accf r.accumulator, paramLen := r.paramLen + d.length, keys := r.keys ++ d } false := by
  induction n generalizing d with
  | zero =>
    have := List.length_eq_zero_iff.1 hn
    subst this
    rw [List.append_nil]
    exact .nil
  | succ n ih =>
    rcases List.eq_nil_or_concat d with rfl | ⟨d, x, rfl⟩
    · simp at hn
    · rw [List.concat_eq_append] at hn hd h16 ⊢
      simp only [List.length_append, List.length_singleton] at hn h16
      refine .snoc (ih (by omega) (fun y hy => hd y (by simp [hy])) (by omega)) ?_
      rw [Resolver.step, if_neg (by simp; omega), Resolver.stepImpl, Binder.findChild]
      simp only
      rw [hr, hpar, hd x (by simp)]
      simp only [Bool.and_self, if_true, Option.map_some, hq, if_false, hpar, hch, decide_false, List.foldl_append, List.foldl_cons, List.foldl_nil, List.length_append, List.length_singleton, List.append_assoc]
      rw [hpend]
      rfl

/-- The parameters of a chord. -/
def collect (p : Params) (ds : List (List Nat)) : Params := ds.foldl (fun p d => p.add (value d % 65536) d.length) p

theorem typed_params (hi : Inv b gs cs bs path) (hc : Compatible cs) {g : Nat} {c2 : List Tok} {ks : List Nat} {ps : List (List Nat)} (hm : Matches c2 ks ps) {c1 : List Tok} {r : Resolver} {p : Nat} {d0 : List Nat}
    (hr : r.node = p) (hp : Prim path p g c1) (hd0 : ∀ x ∈ d0, isDigit x = true) (hpar : (b.nodes p).hasParams = !d0.isEmpty) (hpend : r.pendingParam = !d0.isEmpty) (hacc : r.accumulator = value d0 % 65536)
    (hplen : r.paramLen = d0.length) (hfirst : d0 ≠ [] → ∃ t l, c2 = t :: l ∧ t.star = false) (h16 : r.keys.length + ks.length ≤ 16) {e : Nat} (he : path e = some (g, c1 ++ c2)) :
    ∃ p' stop, Prim path p' g (c1 ++ c2) ∧
      Typed b r ks { r with node := p', params := collect r.params ((if d0 = [] then [] else [d0]) ++ ps), accumulator := 0, paramLen := 0, pendingParam := false, keys := r.keys ++ ks } stop := by
  induction hm generalizing c1 r p d0 with
  | nil =>
    have hd : d0 = [] := by
      by_cases h : d0 = []
      · exact h
      · obtain ⟨t, l, h1, -⟩ := hfirst h
        simp at h1
    subst hd
    refine ⟨p, false, by rw [List.append_nil]; exact hp, ?_⟩
    have : ({ r with node := p, params := collect r.params ((if ([] : List Nat) = [] then [] else [[]]) ++ []), accumulator := 0, paramLen := 0, pendingParam := false, keys := r.keys ++ [] } : Resolver) = r := by
      cases r
      simp only at hr hpend hacc hplen
      subst hr hpend hacc hplen
      simp [collect, value]
    rw [this]
    exact .nil
  | @key k c ks ps h ih =>
    rw [show c1 ++ (⟨k, false⟩ : Tok) :: c = (c1 ++ [⟨k, false⟩]) ++ c from by simp] at he ⊢
    obtain ⟨q, hq⟩ := path_prefix hi _ he
    obtain ⟨l, hcall⟩ := call_of hi hq.1
    have hfc : b.findChild p k = some q := by
      rcases findChild_chord hi hc hp hcall with ⟨i, h1, h2⟩ | ⟨-, h2⟩
      · rw [← prim_unique h2 hq]; exact h1
      · exact absurd hq.1 (h2 q)
    have hqp : (b.nodes q).hasParams = false := hi.rep.prim q g c1 _ hq
    simp only [List.length_cons] at h16
    obtain ⟨r1, hr1⟩ : ∃ r1 : Resolver, r1 = { r with node := q, params := collect r.params (if d0 = [] then [] else [d0]), accumulator := 0, paramLen := 0, pendingParam := false, keys := r.keys ++ [k] } := ⟨_, rfl⟩
    have hstep : r.step b k = some (r1, decide ((b.nodes q).child = 0)) := by
      rw [Resolver.step, if_neg (by omega), Resolver.stepImpl]
      simp only
      rw [hr, hfc, Option.map_some, if_neg (inv_pos hi hq.1), hqp, hpend, hr1]
      by_cases hd : d0 = []
      · subst hd
        simp [collect, hacc, hplen, value, hpend]
      · have : d0.isEmpty = false := by simpa using hd
        simp [this, hd, collect, hacc, hplen]
    cases c with
    | nil =>
      cases h
      refine ⟨q, decide ((b.nodes q).child = 0), by simpa using hq, ?_⟩
      have h1 : Typed b r ([] ++ [k]) r1 _ := .snoc .nil hstep
      rw [hr1] at h1
      rw [List.append_nil]
      exact h1
    | cons t c =>
      have hch : (b.nodes q).child ≠ 0 := by
        intro h0
        have h1 : path e = some (g, ((c1 ++ [⟨k, false⟩]) ++ [t]) ++ c) := by rw [he]; simp
        obtain ⟨q2, hq2⟩ := path_prefix hi _ h1
        exact (child_zero hi hq).1 h0 q2 _ hq2.1
      rw [decide_eq_false hch] at hstep
      obtain ⟨p', stop, h1, h2⟩ := ih (r := r1) (d0 := []) (by rw [hr1]) hq (by simp) hqp (by rw [hr1]; rfl) (by rw [hr1]; rfl) (by rw [hr1]; rfl) (fun h => absurd rfl h)
        (by rw [hr1]; simp; omega) he
      refine ⟨p', stop, h1, ?_⟩
      have h3 : Typed b r ([] ++ [k]) r1 false := .snoc .nil hstep
      have h4 := typed_append h3 h2
      rw [hr1] at h4
      have h5 : collect (collect r.params (if d0 = [] then [] else [d0])) ((if ([] : List Nat) = [] then [] else [[]]) ++ ps) = collect r.params ((if d0 = [] then [] else [d0]) ++ ps) := by
        simp [collect, List.foldl_append]
      rw [h5] at h4
      simpa using h4
  | @param k c d ks ps hd hdig h ih =>
    have hd00 : d0 = [] := by
      by_cases h : d0 = []
      · exact h
      · obtain ⟨t, l, h1, h2⟩ := hfirst h
        cases h1
        simp at h2
    subst hd00
    obtain ⟨x, d, rfl⟩ := List.exists_cons_of_ne_nil hd
    rw [show c1 ++ (⟨42, true⟩ : Tok) :: ⟨k, false⟩ :: c = (c1 ++ [⟨42, true⟩]) ++ ⟨k, false⟩ :: c from by simp] at he ⊢
    obtain ⟨q, hq⟩ := path_prefix hi _ he
    obtain ⟨l, hcall⟩ := call_of hi hq.1
    have hqp : (b.nodes q).hasParams = true := hi.rep.prim q g c1 _ hq
    have hx := hdig x (by simp)
    have hfc : b.findChild p x = some q := by
      rcases findChild_eq (t := ⟨42, true⟩) (key := x) hi.rep hp (by rw [hpar]; rfl) (fun i t' hpi hh => by
          obtain ⟨l', hcall'⟩ := call_of hi hpi
          rw [hit, hi.rep.keys i g c1 t' hpi, Bool.or_eq_true, decide_eq_true_eq, Bool.and_eq_true] at hh
          cases hs : t'.star with
          | true =>
            have h1 := hi.stars _ hcall' t' (by simp) hs
            cases t'
            simp only at hs h1
            rw [hs, h1]
          | false =>
            exfalso
            have h1 := (hc.1 g c1 ⟨42, true⟩ l t' l' hcall hcall' rfl hs).1
            rcases hh with hh | ⟨h2, h3⟩
            · rw [hh, hx] at h1; simp at h1
            · by_cases hpr : Prim path i g (c1 ++ [t'])
              · rw [hi.rep.prim i g c1 t' hpr, hs] at h2; simp at h2
              · rw [(hi.rep.dup i g _ hpi hpr).1] at h2; simp at h2) (fun i hpi => by
          rw [hit, hi.rep.prim i g c1 _ hpi, hx]; simp) with ⟨i, h1, h2⟩ | ⟨-, h2⟩
      · rw [← prim_unique h2 hq]; exact h1
      · exact absurd hq.1 (h2 q)
    have hch : (b.nodes q).child ≠ 0 := by
      intro h0
      have h1 : path e = some (g, ((c1 ++ [⟨42, true⟩]) ++ [⟨k, false⟩]) ++ c) := by rw [he]; simp
      obtain ⟨q2, hq2⟩ := path_prefix hi _ h1
      exact (child_zero hi hq).1 h0 q2 _ hq2.1
    have hq0 := inv_pos hi hq.1
    simp only [List.length_append, List.length_cons] at h16
    obtain ⟨r1, hr1⟩ : ∃ r1 : Resolver, r1 = { r with node := q, accumulator := accf r.accumulator x, paramLen := r.paramLen + 1, pendingParam := true, keys := r.keys ++ [x] } := ⟨_, rfl⟩
    have hstep : r.step b x = some (r1, false) := by
      rw [Resolver.step, if_neg (by omega), Resolver.stepImpl]
      simp only
      rw [hr, hfc, Option.map_some, if_neg hq0, hqp, hr1]
      simp [accf, hch]
    have h1 : Typed b r ([] ++ [x]) r1 false := .snoc .nil hstep
    have h2 := digits_more (r := r1) hq0 hqp hch d.length rfl (fun y hy => hdig y (List.mem_cons_of_mem _ hy)) (by rw [hr1]) (by rw [hr1]) (by rw [hr1]; simp; omega)
    have h3 := typed_append h1 h2
    obtain ⟨r2, hr2⟩ : ∃ r2 : Resolver, r2 = { r with node := q, accumulator := value (x :: d) % 65536, paramLen := (x :: d).length, pendingParam := true, keys := r.keys ++ x :: d } := ⟨_, rfl⟩
    have h4 : ({ r1 with accumulator := d.foldl accf r1.accumulator, paramLen := r1.paramLen + d.length, keys := r1.keys ++ d } : Resolver) = r2 := by
      have h5 := acc_value (x :: d) hdig
      rw [List.foldl_cons] at h5
      rw [hr1, hr2, ← h5]
      simp only [hacc, hplen]
      simp [value]
      omega
    rw [h4] at h3
    obtain ⟨p', stop, g1, g2⟩ := ih (r := r2) (d0 := x :: d) (by rw [hr2]) hq hdig hqp (by rw [hr2]; rfl) (by rw [hr2]) (by rw [hr2]) (fun _ => ⟨_, _, rfl, rfl⟩) (by rw [hr2]; simp; omega) he
    refine ⟨p', stop, g1, ?_⟩
    have g3 := typed_append h3 g2
    rw [hr2] at g3
    simpa using g3

end Clink.Bind
