import Verif.Spec.Bind
import Mathlib.Data.List.Basic

/-! Lemmas about key bindings: the nodes are a trie. -/

namespace Clink.Bind

open Spec

/-- For each node of the trie its group and the chord that leads to it. -/
abbrev Path := Nat → Option (Nat × List Tok)

/-- The first node with a chord; the others are duplicates. -/
def Prim (path : Path) (p g : Nat) (c : List Tok) : Prop := path p = some (g, c) ∧ ∀ j < p, path j ≠ some (g, c)

def isKid (path : Path) (g : Nat) (c : List Tok) (i : Nat) : Bool :=
  match path i with
  | some (g', c') => decide (g' = g ∧ c' ≠ [] ∧ c'.dropLast = c)
  | none => false

/-- The nodes below a chord. -/
def kids (n : Nat) (path : Path) (g : Nat) (c : List Tok) : List Nat := (List.range n).filter (isKid path g c)

/-- The list of siblings; its end leads to the parent. -/
def Links (b : Binder) (p : Nat) : Nat → List Nat → Prop
  | s, [] => s = p
  | s, i :: l => s = i ∧ Links b p (b.nodes i).next l

/-- The nodes are a trie. -/
structure Rep (b : Binder) (gs : List Nat) (path : Path) : Prop where
  next : b.nextNode ≤ 512
  alloc : ∀ i x, path i = some x → 0 < i ∧ i < b.nextNode
  roots : ∀ i g, path i = some (g, []) ↔ i = g ∧ g ∈ gs
  parent : ∀ i g c t, path i = some (g, c ++ [t]) → ∃ p, Prim path p g c ∧ p < i
  root : ∀ g ∈ gs, (b.nodes g).key = 0 ∧ (b.nodes g).next = 0 ∧ (b.nodes g).hasParams = false
  keys : ∀ i g c t, path i = some (g, c ++ [t]) → (b.nodes i).key = t.key
  prim : ∀ i g c t, Prim path i g (c ++ [t]) → (b.nodes i).hasParams = t.star
  dup : ∀ i g c, path i = some (g, c) → ¬ Prim path i g c → (b.nodes i).hasParams = false ∧ (b.nodes i).child = 0
  chain : ∀ p g c, Prim path p g c → if kids b.nextNode path g c = [] then (b.nodes p).child = 0 else Links b p (b.nodes p).child (kids b.nextNode path g c)

theorem isKid_iff {path : Path} {g : Nat} {c : List Tok} {i : Nat} : isKid path g c i = true ↔ ∃ t, path i = some (g, c ++ [t]) := by
  unfold isKid
  split
  · rename_i g' c' h
    simp only [h, decide_eq_true_eq, Option.some.injEq, Prod.mk.injEq]
    constructor
    · rintro ⟨rfl, h1, rfl⟩
      exact ⟨c'.getLast h1, rfl, (List.dropLast_append_getLast h1).symm⟩
    · rintro ⟨t, rfl, rfl⟩
      simp
  · rename_i h
    simp [h]

theorem mem_kids {n : Nat} {path : Path} {g : Nat} {c : List Tok} {i : Nat} : i ∈ kids n path g c ↔ i < n ∧ ∃ t, path i = some (g, c ++ [t]) := by
  rw [kids, List.mem_filter, List.mem_range, isKid_iff]

theorem kids_sorted (n : Nat) (path : Path) (g : Nat) (c : List Tok) : (kids n path g c).Pairwise (· < ·) := List.Pairwise.filter _ List.pairwise_lt_range

theorem kids_length (n : Nat) (path : Path) (g : Nat) (c : List Tok) : (kids n path g c).length ≤ n := by
  have := List.length_filter_le (isKid path g c) (List.range n)
  rw [List.length_range] at this
  exact this

theorem prim_unique {path : Path} {p q g : Nat} {c : List Tok} (hp : Prim path p g c) (hq : Prim path q g c) : p = q := by
  rcases Nat.lt_trichotomy p q with h | h | h
  · exact absurd hp.1 (hq.2 p h)
  · exact h
  · exact absurd hq.1 (hp.2 q h)

/-- Where there is a node there is a first one. -/
theorem prim_exists {path : Path} {i g : Nat} {c : List Tok} (h : path i = some (g, c)) : ∃ p, Prim path p g c ∧ p ≤ i := by
  induction i using Nat.strongRecOn with
  | _ i ih =>
    by_cases hx : ∃ j, j < i ∧ path j = some (g, c)
    · obtain ⟨j, hj, hj'⟩ := hx
      obtain ⟨p, hp, hle⟩ := ih j hj hj'
      exact ⟨p, hp, by omega⟩
    · exact ⟨i, ⟨h, fun j hj hj' => hx ⟨j, hj, hj'⟩⟩, Nat.le_refl _⟩

theorem kid_gt {b : Binder} {gs : List Nat} {path : Path} (hr : Rep b gs path) {p g : Nat} {c : List Tok} (hp : Prim path p g c) {i : Nat} (hi : i ∈ kids b.nextNode path g c) : p < i := by
  obtain ⟨-, t, ht⟩ := mem_kids.1 hi
  obtain ⟨q, hq, hlt⟩ := hr.parent i g c t ht
  rw [prim_unique hp hq]
  exact hlt

/-! The loops -/

def hit (b : Binder) (key i : Nat) : Bool := decide ((b.nodes i).key = key) || ((b.nodes i).hasParams && isDigit key)

theorem findChildLoop_links {b : Binder} {p key : Nat} (l : List Nat) {start f : Nat} (hl : Links b p start l) (hgt : ∀ i ∈ l, p < i) (hf : l.length < f) :
    b.findChildLoop p key f start = some ((l.find? (hit b key)).getD 0) := by
  induction l generalizing start f with
  | nil =>
    obtain ⟨f, rfl⟩ : ∃ m, f = m + 1 := ⟨f - 1, by simp at hf; omega⟩
    rw [Links] at hl
    rw [Binder.findChildLoop, if_neg (by omega)]
    rfl
  | cons i l ih =>
    obtain ⟨f, rfl⟩ : ∃ m, f = m + 1 := ⟨f - 1, by simp at hf; omega⟩
    rw [Links] at hl
    obtain ⟨rfl, hl⟩ := hl
    rw [Binder.findChildLoop, if_pos (hgt _ (by simp)), List.find?_cons]
    by_cases h1 : (b.nodes start).key = key
    · have : hit b key start = true := by simp [hit, h1]
      simp [h1, this]
    · by_cases h2 : ((b.nodes start).hasParams && isDigit key) = true
      · have : hit b key start = true := by simp [hit, h2]
        simp only [h1, if_false, h2, if_true, this]
        rfl
      · have : hit b key start = false := by simp [hit, h1, h2]
        simp only [h1, if_false, h2, this]
        exact ih hl (fun i hi => hgt i (List.mem_cons_of_mem _ hi)) (by simpa using hf)

theorem findTail_links {b : Binder} {p : Nat} (l : List Nat) {h f : Nat} (hl : Links b p (b.nodes h).next l) (hgt : ∀ i ∈ h :: l, p < i) (hs : (h :: l).Pairwise (· < ·))
    (hf : l.length < f) : b.findTail f h = some ((h :: l).getLast (by simp)) := by
  induction l generalizing h f with
  | nil =>
    obtain ⟨f, rfl⟩ : ∃ m, f = m + 1 := ⟨f - 1, by simp at hf; omega⟩
    rw [Links] at hl
    have := hgt h (by simp)
    rw [Binder.findTail, hl, if_neg (by omega)]
    rfl
  | cons i l ih =>
    obtain ⟨f, rfl⟩ : ∃ m, f = m + 1 := ⟨f - 1, by simp at hf; omega⟩
    rw [Links] at hl
    obtain ⟨he, hl⟩ := hl
    rw [List.pairwise_cons] at hs
    have := hs.1 i (by simp)
    rw [Binder.findTail, he, if_pos this, ih hl (fun j hj => hgt j (List.mem_cons_of_mem _ hj)) hs.2 (by simpa using hf)]
    simp

/-- A list of siblings from one of them on. -/
theorem links_drop {b : Binder} {p : Nat} (l1 : List Nat) {l2 : List Nat} {h s : Nat} (hl : Links b p s (l1 ++ h :: l2)) : Links b p (b.nodes h).next l2 := by
  induction l1 generalizing s with
  | nil => exact hl.2
  | cons x l1 ih => exact ih hl.2

/-- `find_child` finds the first node with a chord. -/
theorem findChild_eq {b : Binder} {gs : List Nat} {path : Path} (hr : Rep b gs path) {p g key : Nat} {c : List Tok} {t : Tok} (hp : Prim path p g c)
    (h0 : ((b.nodes p).hasParams && isDigit key) = false) (h1 : ∀ i t', path i = some (g, c ++ [t']) → hit b key i = true → t' = t)
    (h2 : ∀ i, Prim path i g (c ++ [t]) → hit b key i = true) :
    (∃ i, b.findChild p key = some i ∧ Prim path i g (c ++ [t])) ∨ (b.findChild p key = some 0 ∧ ∀ i, path i ≠ some (g, c ++ [t])) := by
  have hk : b.findChild p key = some (((kids b.nextNode path g c).find? (hit b key)).getD 0) := by
    rw [Binder.findChild, if_neg (by simp [h0])]
    have hc := hr.chain p g c hp
    split at hc
    · rename_i he
      rw [hc, he]
      have : fuel = fuel - 1 + 1 := by simp [fuel]
      rw [this, Binder.findChildLoop, if_neg (by omega)]
      rfl
    · refine findChildLoop_links _ hc (fun i hi => kid_gt hr hp hi) ?_
      have := kids_length b.nextNode path g c
      have := hr.next
      unfold fuel
      omega
  rw [hk]
  cases hf : (kids b.nextNode path g c).find? (hit b key) with
  | none =>
    right
    refine ⟨rfl, ?_⟩
    intro i hi
    obtain ⟨q, hq, -⟩ := prim_exists hi
    have := List.find?_eq_none.1 hf q (mem_kids.2 ⟨(hr.alloc q _ hq.1).2, t, hq.1⟩)
    exact this (h2 q hq)
  | some i =>
    left
    refine ⟨i, rfl, ?_⟩
    obtain ⟨hhit, as, bs, hab, has⟩ := List.find?_eq_some_iff_append.1 hf
    have hmem : i ∈ kids b.nextNode path g c := by rw [hab]; simp
    obtain ⟨hi1, t', ht'⟩ := mem_kids.1 hmem
    have := h1 i t' ht' hhit
    subst this
    obtain ⟨q, hq, hqi⟩ := prim_exists ht'
    have hqm : q ∈ kids b.nextNode path g c := mem_kids.2 ⟨(hr.alloc q _ hq.1).2, t', hq.1⟩
    have hqh := h2 q hq
    rcases Nat.lt_or_ge q i with hlt | hge
    · exfalso
      rw [hab] at hqm
      have hs := kids_sorted b.nextNode path g c
      rw [hab] at hs
      rcases List.mem_append.1 hqm with hm | hm
      · have := has q hm
        rw [hqh] at this
        simp at this
      · rcases List.mem_cons.1 hm with rfl | hm
        · omega
        · have := (List.pairwise_cons.1 (List.pairwise_append.1 hs).2.1).1 q hm
          omega
    · have : q = i := by omega
      rw [← this]
      exact hq

/-! A new node -/

def upd (path : Path) (n : Nat) (x : Nat × List Tok) : Path := fun j => if j = n then some x else path j

theorem upd_ne {path : Path} {n j : Nat} {x : Nat × List Tok} (h : j ≠ n) : upd path n x j = path j := by simp [upd, h]

theorem upd_eq {path : Path} {n : Nat} {x : Nat × List Tok} : upd path n x n = some x := by simp [upd]

theorem kids_upd {path : Path} {n g : Nat} {c : List Tok} {g' : Nat} {c' : List Tok} {t : Tok} :
    kids (n + 1) (upd path n (g, c ++ [t])) g' c' = kids n path g' c' ++ (if g' = g ∧ c' = c then [n] else []) := by
  unfold kids
  rw [List.range_succ, List.filter_append]
  have h1 : (List.range n).filter (isKid (upd path n (g, c ++ [t])) g' c') = (List.range n).filter (isKid path g' c') := by
    apply List.filter_congr
    intro i hi
    have : i ≠ n := by have := List.mem_range.1 hi; omega
    unfold isKid
    rw [upd_ne this]
  rw [h1]
  congr 1
  rw [List.filter_singleton]
  have : isKid (upd path n (g, c ++ [t])) g' c' n = decide (g' = g ∧ c' = c) := by
    rw [Bool.eq_iff_iff, isKid_iff, upd_eq]
    simp only [Option.some.injEq, Prod.mk.injEq, decide_eq_true_eq]
    constructor
    · rintro ⟨t', rfl, h⟩
      exact ⟨rfl, (List.append_inj' h rfl).1.symm⟩
    · rintro ⟨rfl, rfl⟩
      exact ⟨t, rfl, rfl⟩
  rw [this]
  by_cases h : g' = g ∧ c' = c <;> simp [h]

theorem links_congr {b b' : Binder} {p : Nat} (l : List Nat) {s : Nat} (h : ∀ j ∈ l, (b'.nodes j).next = (b.nodes j).next) (hl : Links b p s l) : Links b' p s l := by
  induction l generalizing s with
  | nil => exact hl
  | cons i l ih =>
    refine ⟨hl.1, ?_⟩
    rw [h i (by simp)]
    exact ih (fun j hj => h j (List.mem_cons_of_mem _ hj)) hl.2

theorem links_snoc {b b' : Binder} {p n : Nat} (l : List Nat) {s : Nat} (hl : Links b p s l) (hne : l ≠ []) (hs : l.Pairwise (· < ·))
    (h : ∀ j ∈ l, (b'.nodes j).next = if l.getLast? = some j then n else (b.nodes j).next) (hn : (b'.nodes n).next = p) : Links b' p s (l ++ [n]) := by
  induction l generalizing s with
  | nil => exact absurd rfl hne
  | cons i l ih =>
    refine ⟨hl.1, ?_⟩
    cases l with
    | nil =>
      have := h i (by simp)
      rw [this]
      simp [Links, hn]
    | cons j l =>
      have h0 := h i (by simp)
      rw [List.pairwise_cons] at hs
      have hlast : (i :: j :: l).getLast? = (j :: l).getLast? := by simp
      have hni : (i :: j :: l).getLast? ≠ some i := by
        rw [hlast]
        intro he
        have := hs.1 i (List.mem_of_getLast? he)
        omega
      rw [if_neg hni] at h0
      rw [h0]
      exact ih hl.2 (by simp) hs.2 (fun k hk => by have := h k (List.mem_cons_of_mem _ hk); rw [hlast] at this; exact this)

theorem prim_upd {path : Path} {n : Nat} {x : Nat × List Tok} (hn : ∀ i y, path i = some y → i < n) {i g : Nat} {c : List Tok} (hi : i ≠ n) :
    Prim (upd path n x) i g c ↔ Prim path i g c := by
  unfold Prim
  rw [upd_ne hi]
  constructor
  · rintro ⟨h1, h2⟩
    refine ⟨h1, fun j hj => ?_⟩
    have := hn _ _ h1
    have := h2 j hj
    rw [upd_ne (by omega)] at this
    exact this
  · rintro ⟨h1, h2⟩
    refine ⟨h1, fun j hj => ?_⟩
    have := hn _ _ h1
    rw [upd_ne (by omega)]
    exact h2 j hj

theorem rep_extend {b b' : Binder} {gs : List Nat} {path : Path} (hr : Rep b gs path) {p g : Nat} {c : List Tok} (hp : Prim path p g c) {t : Tok} {star : Bool}
    (hn : b'.nextNode = b.nextNode + 1) (h512 : b.nextNode + 1 ≤ 512)
    (hnew : b'.nodes b.nextNode = { key := t.key, hasParams := star, next := p })
    (hkey : ∀ j, j ≠ b.nextNode → (b'.nodes j).key = (b.nodes j).key ∧ (b'.nodes j).hasParams = (b.nodes j).hasParams)
    (hchild : ∀ j, j ≠ b.nextNode → (b'.nodes j).child = if j = p ∧ kids b.nextNode path g c = [] then b.nextNode else (b.nodes j).child)
    (hnext : ∀ j, j ≠ b.nextNode → (b'.nodes j).next = if (kids b.nextNode path g c).getLast? = some j then b.nextNode else (b.nodes j).next)
    (hcase : (∀ j, path j ≠ some (g, c ++ [t])) ∧ star = t.star ∨ (∃ j, path j = some (g, c ++ [t])) ∧ star = false) :
    Rep b' gs (upd path b.nextNode (g, c ++ [t])) := by
  have halloc : ∀ i y, path i = some y → i < b.nextNode := fun i y h => (hr.alloc i y h).2
  have hnone : path b.nextNode = none := by
    cases h : path b.nextNode with
    | none => rfl
    | some x => have := halloc _ _ h; omega
  have hpn : p < b.nextNode := halloc _ _ hp.1
  have hlast : ∀ j, (kids b.nextNode path g c).getLast? = some j → j ∈ kids b.nextNode path g c := fun j h => List.mem_of_getLast? h
  refine ⟨by omega, ?_, ?_, ?_, ?_, ?_, ?_, ?_, ?_⟩
  · -- alloc
    intro i x h
    by_cases hi : i = b.nextNode
    · subst hi; rw [hn]; have := hpn; exact ⟨by omega, by omega⟩
    · rw [upd_ne hi] at h
      have := hr.alloc i x h
      rw [hn]
      exact ⟨this.1, by omega⟩
  · -- roots
    intro i g'
    by_cases hi : i = b.nextNode
    · subst hi
      rw [upd_eq]
      constructor
      · intro h
        simp at h
      · rintro ⟨h1, h2⟩
        have := (hr.roots g' g').2 ⟨rfl, h2⟩
        rw [← h1, hnone] at this
        simp at this
    · rw [upd_ne hi]
      exact hr.roots i g'
  · -- parent
    intro i g' c' t' h
    by_cases hi : i = b.nextNode
    · subst hi
      rw [upd_eq] at h
      simp only [Option.some.injEq, Prod.mk.injEq] at h
      obtain ⟨rfl, h⟩ := h
      obtain ⟨rfl, h⟩ := List.append_inj' h rfl
      exact ⟨p, (prim_upd halloc (by omega)).2 hp, hpn⟩
    · rw [upd_ne hi] at h
      obtain ⟨q, hq, hlt⟩ := hr.parent i g' c' t' h
      have := halloc _ _ hq.1
      exact ⟨q, (prim_upd halloc (by omega)).2 hq, hlt⟩
  · -- root
    intro g' hg'
    have hpg := (hr.roots g' g').2 ⟨rfl, hg'⟩
    have hne : g' ≠ b.nextNode := by have := halloc _ _ hpg; omega
    have h1 := hr.root g' hg'
    refine ⟨by rw [(hkey g' hne).1]; exact h1.1, ?_, by rw [(hkey g' hne).2]; exact h1.2.2⟩
    rw [hnext g' hne, if_neg]
    · exact h1.2.1
    · intro he
      obtain ⟨-, t', ht'⟩ := mem_kids.1 (hlast _ he)
      rw [hpg] at ht'
      simp at ht'
  · -- keys
    intro i g' c' t' h
    by_cases hi : i = b.nextNode
    · subst hi
      rw [upd_eq] at h
      simp only [Option.some.injEq, Prod.mk.injEq] at h
      have := List.append_inj' h.2 rfl
      simp only [List.cons.injEq, and_true] at this
      rw [hnew, this.2]
    · rw [upd_ne hi] at h
      rw [(hkey i hi).1]
      exact hr.keys i g' c' t' h
  · -- prim
    intro i g' c' t' h
    by_cases hi : i = b.nextNode
    · subst hi
      have h1 := h.1
      rw [upd_eq] at h1
      simp only [Option.some.injEq, Prod.mk.injEq] at h1
      obtain ⟨rfl, h1⟩ := h1
      rw [hnew]
      simp only
      rcases hcase with ⟨-, rfl⟩ | ⟨⟨j, hj⟩, -⟩
      · have := List.append_inj' h1 rfl
        simp only [List.cons.injEq, and_true] at this
        rw [this.2]
      · exfalso
        have hjn := halloc _ _ hj
        apply h.2 j hjn
        rw [upd_ne (by omega), hj, h1]
    · rw [(hkey i hi).2]
      exact hr.prim i g' c' t' ((prim_upd halloc hi).1 h)
  · -- dup
    intro i g' c' h hnp
    by_cases hi : i = b.nextNode
    · subst hi
      rw [upd_eq] at h
      simp only [Option.some.injEq, Prod.mk.injEq] at h
      obtain ⟨rfl, rfl⟩ := h
      rw [hnew]
      refine ⟨?_, rfl⟩
      rcases hcase with ⟨h1, -⟩ | ⟨-, rfl⟩
      · exfalso
        apply hnp
        refine ⟨upd_eq, fun j hj => ?_⟩
        rw [upd_ne (by omega)]
        exact h1 j
      · rfl
    · have hnp' : ¬ Prim path i g' c' := fun h' => hnp ((prim_upd halloc hi).2 h')
      rw [upd_ne hi] at h
      have h1 := hr.dup i g' c' h hnp'
      refine ⟨by rw [(hkey i hi).2]; exact h1.1, ?_⟩
      rw [hchild i hi, if_neg]
      · exact h1.2
      · rintro ⟨rfl, -⟩
        rw [hp.1] at h
        cases h
        exact hnp' hp
  · -- chain
    intro q g' c' hq
    rw [hn, kids_upd]
    by_cases hqn : q = b.nextNode
    · subst hqn
      have h1 := hq.1
      rw [upd_eq] at h1
      simp only [Option.some.injEq, Prod.mk.injEq] at h1
      obtain ⟨rfl, rfl⟩ := h1
      have hno : ∀ j, path j ≠ some (g, c ++ [t]) := by
        intro j hj
        have := halloc _ _ hj
        apply hq.2 j this
        rw [upd_ne (by omega)]
        exact hj
      have hk : kids b.nextNode path g (c ++ [t]) = [] := by
        rw [List.eq_nil_iff_forall_not_mem]
        intro i hi
        obtain ⟨-, t', ht'⟩ := mem_kids.1 hi
        obtain ⟨q, hq, -⟩ := hr.parent i g (c ++ [t]) t' ht'
        exact hno q hq.1
      have hne : ¬ (g = g ∧ c ++ [t] = c) := by simp
      rw [hk, if_neg hne, if_pos (by simp), hnew]
    · have hq' : Prim path q g' c' := (prim_upd halloc hqn).1 hq
      have hc := hr.chain q g' c' hq'
      by_cases he : g' = g ∧ c' = c
      · obtain ⟨rfl, rfl⟩ := he
        have : q = p := prim_unique hq' hp
        subst this
        have h1 := hchild q (by omega)
        have h2 : ((if g' = g' ∧ c' = c' then [b.nextNode] else []) : List Nat) = [b.nextNode] := if_pos ⟨rfl, rfl⟩
        rw [h2, if_neg (by simp)]
        by_cases hk : kids b.nextNode path g' c' = []
        · rw [if_pos ⟨rfl, hk⟩] at h1
          rw [h1, hk]
          simp only [List.nil_append, Links, hnew, true_and]
        · rw [if_neg (by simp [hk])] at h1
          rw [h1]
          rw [if_neg hk] at hc
          refine links_snoc _ hc hk (kids_sorted _ _ _ _) ?_ (by rw [hnew])
          intro j hj
          have := (mem_kids.1 hj).1
          exact hnext j (by omega)
      · rw [if_neg he, List.append_nil]
        have hqp : q ≠ p := by
          rintro rfl
          have := hq'.1
          rw [hp.1] at this
          simp only [Option.some.injEq, Prod.mk.injEq] at this
          exact he ⟨this.1.symm, this.2.symm⟩
        have h1 := hchild q hqn
        rw [if_neg (by simp [hqp])] at h1
        rw [h1]
        by_cases hk : kids b.nextNode path g' c' = []
        · rw [if_pos hk] at hc ⊢
          exact hc
        · rw [if_neg hk] at hc ⊢
          refine links_congr _ ?_ hc
          intro j hj
          obtain ⟨hj1, t', ht'⟩ := mem_kids.1 hj
          rw [hnext j (by omega), if_neg]
          intro hl
          obtain ⟨-, t'', ht''⟩ := mem_kids.1 (hlast _ hl)
          rw [ht'] at ht''
          simp only [Option.some.injEq, Prod.mk.injEq] at ht''
          exact he ⟨ht''.1, (List.append_inj' ht''.2 rfl).1⟩

/-! The functions -/

/-- The nodes and what was bound. -/
structure Inv (b : Binder) (gs : List Nat) (cs : List (Nat × List Tok)) (bs : List Bound) (path : Path) : Prop where
  rep : Rep b gs path
  depth : ∀ i g c, path i = some (g, c) → (b.nodes i).bound = true → (b.nodes i).depth = c.length % 16
  dups : ∀ i p g c, path i = some (g, c) → i ≠ p → Prim path p g c → (b.nodes p).bound = true
  binds : ∀ g c, ((List.range b.nextNode).filter fun i => decide (path i = some (g, c)) && (b.nodes i).bound).map (fun i => (b.modules[(b.nodes i).module]?, (b.nodes i).id)) =
    (bs.filter fun x => decide (x.group = g ∧ x.chord = c)).map fun x => (some x.module, x.id)
  mods : ∀ i x, path i = some x → (b.nodes i).bound = true → (b.nodes i).module < b.modules.length
  paths : ∀ i g c, path i = some (g, c) → c = [] ∨ ∃ c', (g, c') ∈ cs ∧ c <+: c'
  stars : ∀ x ∈ cs, ∀ t ∈ x.2, t.star = true → t.key = 42

theorem inv_pos {b : Binder} {gs : List Nat} {cs : List (Nat × List Tok)} {bs : List Bound} {path : Path} (hi : Inv b gs cs bs path) {i : Nat} {x : Nat × List Tok} (h : path i = some x) : i ≠ 0 := by
  have := (hi.rep.alloc i x h).1
  omega

/-- The conditions under which `find_child` follows a chord. -/
theorem findChild_chord {b : Binder} {gs : List Nat} {cs : List (Nat × List Tok)} {bs : List Bound} {path : Path} (hi : Inv b gs cs bs path) (hc : Compatible cs) {p g : Nat}
    {c r : List Tok} {t : Tok} (hp : Prim path p g c) (hin : (g, c ++ t :: r) ∈ cs) :
    (∃ i, b.findChild p t.key = some i ∧ Prim path i g (c ++ [t])) ∨ (b.findChild p t.key = some 0 ∧ ∀ i, path i ≠ some (g, c ++ [t])) := by
  have hcall : ∀ i t', path i = some (g, c ++ [t']) → ∃ r', (g, c ++ t' :: r') ∈ cs := by
    intro i t' h
    rcases hi.paths i g _ h with h | ⟨c', h1, r', rfl⟩
    · simp at h
    · exact ⟨r', by simpa using h1⟩
  refine findChild_eq hi.rep hp ?_ ?_ ?_
  · rcases List.eq_nil_or_concat c with rfl | ⟨c0, t0, rfl⟩
    · have := ((hi.rep.roots p g).1 hp.1)
      rw [this.1, (hi.rep.root g this.2).2.2]
      rfl
    · rw [List.concat_eq_append] at hp hin
      rw [hi.rep.prim p g c0 t0 hp]
      cases hs : t0.star with
      | false => rfl
      | true => rw [hc.2 g c0 t0 t r (by simpa using hin) hs]; rfl
  · intro i t' h hh
    obtain ⟨r', hr'⟩ := hcall i t' h
    have hk := hi.rep.keys i g c t' h
    rw [hit, hk, Bool.or_eq_true, decide_eq_true_eq, Bool.and_eq_true] at hh
    have hst : t.star = true → t.key = 42 := hi.stars _ hin t (by simp)
    have hst' : t'.star = true → t'.key = 42 := hi.stars _ hr' t' (by simp)
    have e : ∀ a b : Tok, a.key = b.key → a.star = b.star → a = b := by rintro ⟨a, a'⟩ ⟨b, b'⟩ h1 h2; simp at h1 h2; rw [h1, h2]
    rcases hh with hh | ⟨h1, h2⟩
    · cases h1 : t.star <;> cases h2 : t'.star
      · exact e _ _ hh (by rw [h1, h2])
      · have := (hc.1 g c t' r' t r hr' hin h2 h1).2
        exact absurd (by rw [← hh]; exact hst' h2) this
      · have := (hc.1 g c t r t' r' hin hr' h1 h2).2
        exact absurd (by rw [hh]; exact hst h1) this
      · exact e _ _ hh (by rw [h1, h2])
    · exfalso
      have hpr : Prim path i g (c ++ [t']) := by
        apply Classical.byContradiction
        intro hn
        have := (hi.rep.dup i g _ h hn).1
        rw [this] at h1
        simp at h1
      rw [hi.rep.prim i g c t' hpr] at h1
      cases h3 : t.star with
      | true => rw [hst h3] at h2; simp [isDigit] at h2
      | false =>
        have := (hc.1 g c t' r' t r hr' hin h1 h3).1
        rw [this] at h2
        simp at h2
  · intro i h
    rw [hit, hi.rep.keys i g c t h.1]
    simp

theorem range_filter_congr {n : Nat} {P Q : Nat → Bool} (h : ∀ i < n, P i = Q i) : (List.range n).filter P = (List.range n).filter Q :=
  List.filter_congr fun i hi => h i (List.mem_range.1 hi)

/-- What an operation keeps of the nodes that there were. -/
structure Keeps (b b' : Binder) (path path' : Path) : Prop where
  le : b.nextNode ≤ b'.nextNode
  same : ∀ i, i < b.nextNode → path' i = path i
  bound : ∀ i, i < b.nextNode → (b'.nodes i).bound = (b.nodes i).bound
  modules : b'.modules = b.modules
  frame : ∀ i, i < b.nextNode → path i = none → b'.nodes i = b.nodes i

theorem keeps_refl (b : Binder) (path : Path) : Keeps b b path path := ⟨Nat.le_refl _, fun _ _ => rfl, fun _ _ => rfl, rfl, fun _ _ _ => rfl⟩

theorem keeps_trans {b1 b2 b3 : Binder} {p1 p2 p3 : Path} (h1 : Keeps b1 b2 p1 p2) (h2 : Keeps b2 b3 p2 p3) : Keeps b1 b3 p1 p3 :=
  ⟨Nat.le_trans h1.le h2.le, fun i hi => (h2.same i (Nat.lt_of_lt_of_le hi h1.le)).trans (h1.same i hi),
    fun i hi => (h2.bound i (Nat.lt_of_lt_of_le hi h1.le)).trans (h1.bound i hi), h2.modules.trans h1.modules,
    fun i hi h => (h2.frame i (Nat.lt_of_lt_of_le hi h1.le) ((h1.same i hi).trans h)).trans (h1.frame i hi h)⟩

/-- A new node that is not bound. -/
theorem inv_extend {b b' : Binder} {gs : List Nat} {cs : List (Nat × List Tok)} {bs : List Bound} {path : Path} (hi : Inv b gs cs bs path) {g : Nat} {c : List Tok} {t : Tok}
    (hrep : Rep b' gs (upd path b.nextNode (g, c ++ [t]))) (hn : b'.nextNode = b.nextNode + 1) (hm : b'.modules = b.modules)
    (hold : ∀ j, j ≠ b.nextNode → (b'.nodes j).bound = (b.nodes j).bound ∧ (b'.nodes j).depth = (b.nodes j).depth ∧ (b'.nodes j).module = (b.nodes j).module ∧ (b'.nodes j).id = (b.nodes j).id)
    (hnew : (b'.nodes b.nextNode).bound = false) (hdup : ∀ p, Prim path p g (c ++ [t]) → (b.nodes p).bound = true) (hin : ∃ r, (g, c ++ t :: r) ∈ cs)
    (hframe : ∀ j, j < b.nextNode → path j = none → b'.nodes j = b.nodes j) :
    Inv b' gs cs bs (upd path b.nextNode (g, c ++ [t])) ∧ Keeps b b' path (upd path b.nextNode (g, c ++ [t])) := by
  have halloc : ∀ i y, path i = some y → i < b.nextNode := fun i y h => (hi.rep.alloc i y h).2
  refine ⟨⟨hrep, ?_, ?_, ?_, ?_, ?_, hi.stars⟩, ⟨by omega, fun i hi => upd_ne (by omega), fun i hi => (hold i (by omega)).1, hm, hframe⟩⟩
  · intro i g' c' h hb
    by_cases hin : i = b.nextNode
    · subst hin; rw [hnew] at hb; simp at hb
    · rw [upd_ne hin] at h
      rw [(hold i hin).1] at hb
      rw [(hold i hin).2.1]
      exact hi.depth i g' c' h hb
  · intro i p g' c' h hne hp
    by_cases hpn : p = b.nextNode
    · subst hpn
      exfalso
      rw [upd_ne hne] at h
      apply hp.2 i (halloc _ _ h)
      rw [upd_ne hne]; exact h
    · have hp' := (prim_upd halloc hpn).1 hp
      rw [(hold p hpn).1]
      by_cases hin : i = b.nextNode
      · subst hin
        rw [upd_eq] at h
        cases h
        exact hdup p hp'
      · rw [upd_ne hin] at h
        exact hi.dups i p g' c' h hne hp'
  · intro g' c'
    rw [hn, List.range_succ, List.filter_append]
    have h1 : (decide (upd path b.nextNode (g, c ++ [t]) b.nextNode = some (g', c')) && (b'.nodes b.nextNode).bound) = false := by rw [hnew]; simp
    rw [show [b.nextNode].filter (fun i => decide (upd path b.nextNode (g, c ++ [t]) i = some (g', c')) && (b'.nodes i).bound) = [] from by rw [List.filter_cons, h1]; rfl]
    rw [List.append_nil, ← hi.binds g' c']
    have h2 : (List.range b.nextNode).filter (fun i => decide (upd path b.nextNode (g, c ++ [t]) i = some (g', c')) && (b'.nodes i).bound) =
        (List.range b.nextNode).filter (fun i => decide (path i = some (g', c')) && (b.nodes i).bound) := by
      apply range_filter_congr
      intro i hlt
      rw [upd_ne (by omega), (hold i (by omega)).1]
    rw [h2]
    apply List.map_congr_left
    intro i hmem
    have := List.mem_range.1 (List.mem_filter.1 hmem).1
    obtain ⟨-, -, h3, h4⟩ := hold i (by omega)
    rw [h3, h4, hm]
  · intro i x h hb
    by_cases hin : i = b.nextNode
    · subst hin; rw [hnew] at hb; simp at hb
    · rw [upd_ne hin] at h
      rw [(hold i hin).1] at hb
      rw [(hold i hin).2.2.1, hm]
      exact hi.mods i x h hb
  · intro i g' c' h
    by_cases hx : i = b.nextNode
    · subst hx
      rw [upd_eq] at h
      cases h
      obtain ⟨r, hr⟩ := hin
      exact .inr ⟨_, hr, r, by simp⟩
    · rw [upd_ne hx] at h
      exact hi.paths i g' c' h

/-- The end of a list of siblings. -/
theorem kids_tail {b : Binder} {gs : List Nat} {path : Path} (hr : Rep b gs path) {p g : Nat} {c : List Tok} (hp : Prim path p g c) (h : Nat) (hh : h ∈ kids b.nextNode path g c) (n : Nat) :
    ∃ x, (kids b.nextNode path g c).getLast? = some x ∧ ({ b with nextNode := n } : Binder).findTail fuel h = some x := by
  have hc := hr.chain p g c hp
  have hne : kids b.nextNode path g c ≠ [] := by intro he; rw [he] at hh; simp at hh
  rw [if_neg hne] at hc
  obtain ⟨l1, l2, hl⟩ := List.append_of_mem hh
  rw [hl] at hc
  have hd := links_drop l1 hc
  have hs := kids_sorted b.nextNode path g c
  have hgt : ∀ i ∈ kids b.nextNode path g c, p < i := fun i hi => kid_gt hr hp hi
  rw [hl] at hs hgt
  refine ⟨(h :: l2).getLast (by simp), ?_, ?_⟩
  · rw [hl, List.getLast?_append, List.getLast?_eq_getLast_of_ne_nil (l := h :: l2) (by simp)]
    rfl
  · have hd' : Links { b with nextNode := n } p (b.nodes h).next l2 := links_congr (b := b) l2 (fun _ _ => rfl) hd
    refine findTail_links l2 hd' (fun i hi => hgt i (List.mem_append_right _ hi)) (List.pairwise_append.1 hs).2.1 ?_
    have h1 := kids_length b.nextNode path g c
    have h2 := hr.next
    rw [hl] at h1
    simp only [List.length_append, List.length_cons] at h1
    unfold fuel
    omega

theorem alloc_one (b : Binder) : b.alloc 1 = if 512 < b.nextNode + 1 then none else some ({ b with nextNode := b.nextNode + 1 }, b.nextNode) := rfl

/-- `add_child` for a chord that has no node. -/
theorem addChild_spec {b : Binder} {gs : List Nat} {cs : List (Nat × List Tok)} {bs : List Bound} {path : Path} (hi : Inv b gs cs bs path) {p g : Nat} {c : List Tok} {t : Tok}
    (hp : Prim path p g c) (hno : ∀ j, path j ≠ some (g, c ++ [t])) (hin : ∃ r, (g, c ++ t :: r) ∈ cs) :
    (512 < b.nextNode + 1 ∧ b.addChild p t.key t.star = some (b, 0)) ∨
    ∃ b', b.addChild p t.key t.star = some (b', b.nextNode) ∧ b'.nextNode = b.nextNode + 1 ∧ Inv b' gs cs bs (upd path b.nextNode (g, c ++ [t])) ∧
      Keeps b b' path (upd path b.nextNode (g, c ++ [t])) ∧ Prim (upd path b.nextNode (g, c ++ [t])) b.nextNode g (c ++ [t]) := by
  have hpos := (hi.rep.alloc p _ hp.1).1
  have hpn := (hi.rep.alloc p _ hp.1).2
  by_cases hfull : 512 < b.nextNode + 1
  · left
    refine ⟨hfull, ?_⟩
    rw [Binder.addChild, alloc_one, if_pos hfull]
  · right
    have hprim : Prim (upd path b.nextNode (g, c ++ [t])) b.nextNode g (c ++ [t]) := by
      refine ⟨upd_eq, fun j hj => ?_⟩
      rw [upd_ne (by omega)]
      exact hno j
    have hchain := hi.rep.chain p g c hp
    by_cases hk : kids b.nextNode path g c = []
    · rw [if_pos hk] at hchain
      obtain ⟨b', hb'⟩ : ∃ b' : Binder, b' = (({ b with nextNode := b.nextNode + 1 } : Binder).set p { b.nodes p with child := b.nextNode }).set b.nextNode
          { key := t.key, hasParams := t.star, next := p } := ⟨_, rfl⟩
      have heq : b.addChild p t.key t.star = some (b', b.nextNode) := by
        rw [Binder.addChild, alloc_one, if_neg hfull, hb']
        simp only
        rw [if_pos (by rw [hchain]; omega)]
      have hnode : ∀ j, b'.nodes j = if j = b.nextNode then { key := t.key, hasParams := t.star, next := p } else if j = p then { b.nodes p with child := b.nextNode } else b.nodes j := by
        intro j; rw [hb']; rfl
      have hn : b'.nextNode = b.nextNode + 1 := by rw [hb']; rfl
      have hm : b'.modules = b.modules := by rw [hb']; rfl
      have hnew : b'.nodes b.nextNode = { key := t.key, hasParams := t.star, next := p } := by rw [hnode, if_pos rfl]
      have hrep : Rep b' gs (upd path b.nextNode (g, c ++ [t])) := by
        refine rep_extend hi.rep hp hn (by omega) hnew ?_ ?_ ?_ (.inl ⟨hno, rfl⟩)
        · intro j hj
          rw [hnode, if_neg hj]
          split
          · rename_i h; subst h; exact ⟨rfl, rfl⟩
          · exact ⟨rfl, rfl⟩
        · intro j hj
          rw [hnode, if_neg hj]
          split
          · rename_i h; subst h; rw [if_pos ⟨rfl, hk⟩]
          · rename_i h; rw [if_neg (by simp [h])]
        · intro j hj
          rw [hnode, if_neg hj, hk]
          simp only [List.getLast?_nil, reduceCtorEq, if_false]
          split
          · rename_i h; subst h; rfl
          · rfl
      refine ⟨b', heq, hn, ?_⟩
      obtain ⟨h1, h2⟩ := inv_extend hi hrep hn hm (fun j hj => by
        rw [hnode, if_neg hj]
        split
        · rename_i h; subst h; exact ⟨rfl, rfl, rfl, rfl⟩
        · exact ⟨rfl, rfl, rfl, rfl⟩) (by rw [hnew]) (fun q hq => absurd hq.1 (hno q)) hin (fun j hj hj' => by
          rw [hnode, if_neg (by omega), if_neg]
          intro he
          subst he
          rw [hp.1] at hj'
          simp at hj')
      exact ⟨h1, h2, hprim⟩
    · rw [if_neg hk] at hchain
      obtain ⟨h, l, hl⟩ := List.exists_cons_of_ne_nil hk
      have hch : (b.nodes p).child = h := by rw [hl] at hchain; exact hchain.1
      have hmem : h ∈ kids b.nextNode path g c := by rw [hl]; simp
      have hgt := kid_gt hi.rep hp hmem
      obtain ⟨x, hx1, hx2⟩ := kids_tail hi.rep hp h hmem (b.nextNode + 1)
      have hxm : x ∈ kids b.nextNode path g c := List.mem_of_getLast? hx1
      have hxn := (mem_kids.1 hxm).1
      obtain ⟨b', hb'⟩ : ∃ b' : Binder, b' = (({ b with nextNode := b.nextNode + 1 } : Binder).set x { b.nodes x with next := b.nextNode }).set b.nextNode
          { key := t.key, hasParams := t.star, next := p } := ⟨_, rfl⟩
      have heq : b.addChild p t.key t.star = some (b', b.nextNode) := by
        rw [Binder.addChild, alloc_one, if_neg hfull, hb']
        simp only
        rw [if_neg (by rw [hch]; omega), hch, hx2]
        rfl
      have hnode : ∀ j, b'.nodes j = if j = b.nextNode then { key := t.key, hasParams := t.star, next := p } else if j = x then { b.nodes x with next := b.nextNode } else b.nodes j := by
        intro j; rw [hb']; rfl
      have hn : b'.nextNode = b.nextNode + 1 := by rw [hb']; rfl
      have hm : b'.modules = b.modules := by rw [hb']; rfl
      have hnew : b'.nodes b.nextNode = { key := t.key, hasParams := t.star, next := p } := by rw [hnode, if_pos rfl]
      have hrep : Rep b' gs (upd path b.nextNode (g, c ++ [t])) := by
        refine rep_extend hi.rep hp hn (by omega) hnew ?_ ?_ ?_ (.inl ⟨hno, rfl⟩)
        · intro j hj
          rw [hnode, if_neg hj]
          split
          · rename_i h; subst h; exact ⟨rfl, rfl⟩
          · exact ⟨rfl, rfl⟩
        · intro j hj
          rw [hnode, if_neg hj, show (if j = p ∧ kids b.nextNode path g c = [] then b.nextNode else (b.nodes j).child) = (b.nodes j).child from if_neg fun h => hk h.2]
          split
          · rename_i h; subst h; rfl
          · rfl
        · intro j hj
          rw [hnode, if_neg hj, hx1]
          split
          · rename_i h; subst h; rw [if_pos rfl]
          · rename_i h
            rw [if_neg (by intro he; exact h (Option.some.inj he).symm)]
      refine ⟨b', heq, hn, ?_⟩
      obtain ⟨h1, h2⟩ := inv_extend hi hrep hn hm (fun j hj => by
        rw [hnode, if_neg hj]
        split
        · rename_i h; subst h; exact ⟨rfl, rfl, rfl, rfl⟩
        · exact ⟨rfl, rfl, rfl, rfl⟩) (by rw [hnew]) (fun q hq => absurd hq.1 (hno q)) hin (fun j hj hj' => by
        rw [hnode, if_neg (by omega), if_neg]
        intro he
        subst he
        obtain ⟨-, t', ht'⟩ := mem_kids.1 hxm
        rw [ht'] at hj'
        simp at hj')
      exact ⟨h1, h2, hprim⟩

/-- `append` for a chord that is bound. -/
theorem append_spec {b : Binder} {gs : List Nat} {cs : List (Nat × List Tok)} {bs : List Bound} {path : Path} (hi : Inv b gs cs bs path) {h g : Nat} {c : List Tok} {t : Tok}
    (hh : Prim path h g (c ++ [t])) (hb : (b.nodes h).bound = true) (hin : ∃ r, (g, c ++ t :: r) ∈ cs) :
    (512 < b.nextNode + 1 ∧ b.append h t.key = some (b, 0)) ∨
    ∃ b', b.append h t.key = some (b', b.nextNode) ∧ (b'.nextNode = b.nextNode + 1 ∧ (b'.nodes b.nextNode).bound = false) ∧ Inv b' gs cs bs (upd path b.nextNode (g, c ++ [t])) ∧
      Keeps b b' path (upd path b.nextNode (g, c ++ [t])) := by
  by_cases hfull : 512 < b.nextNode + 1
  · left
    refine ⟨hfull, ?_⟩
    rw [Binder.append, alloc_one, if_pos hfull]
  · right
    obtain ⟨p, hp, -⟩ := hi.rep.parent h g c t hh.1
    have hmem : h ∈ kids b.nextNode path g c := mem_kids.2 ⟨(hi.rep.alloc h _ hh.1).2, t, hh.1⟩
    have hk : kids b.nextNode path g c ≠ [] := by intro he; rw [he] at hmem; simp at hmem
    obtain ⟨x, hx1, hx2⟩ := kids_tail hi.rep hp h hmem (b.nextNode + 1)
    have hxm : x ∈ kids b.nextNode path g c := List.mem_of_getLast? hx1
    have hxn := (mem_kids.1 hxm).1
    have hlast : (b.nodes x).next = p := by
      have hchain := hi.rep.chain p g c hp
      rw [if_neg hk] at hchain
      obtain ⟨l, hl⟩ : ∃ l, kids b.nextNode path g c = l ++ [x] := by
        have := List.dropLast_append_getLast? _ hx1
        exact ⟨_, this.symm⟩
      rw [hl] at hchain
      exact links_drop l hchain
    obtain ⟨b', hb'⟩ : ∃ b' : Binder, b' = (({ b with nextNode := b.nextNode + 1 } : Binder).set x { b.nodes x with next := b.nextNode }).set b.nextNode
        { key := t.key, next := p } := ⟨_, rfl⟩
    have heq : b.append h t.key = some (b', b.nextNode) := by
      rw [Binder.append, alloc_one, if_neg hfull, hb']
      simp only
      rw [hx2]
      simp only [Option.map_some, hlast]
    have hnode : ∀ j, b'.nodes j = if j = b.nextNode then { key := t.key, next := p } else if j = x then { b.nodes x with next := b.nextNode } else b.nodes j := by
      intro j; rw [hb']; rfl
    have hn : b'.nextNode = b.nextNode + 1 := by rw [hb']; rfl
    have hm : b'.modules = b.modules := by rw [hb']; rfl
    have hnew : b'.nodes b.nextNode = { key := t.key, next := p } := by rw [hnode, if_pos rfl]
    have hrep : Rep b' gs (upd path b.nextNode (g, c ++ [t])) := by
      refine rep_extend hi.rep hp hn (by omega) hnew ?_ ?_ ?_ (.inr ⟨⟨h, hh.1⟩, rfl⟩)
      · intro j hj
        rw [hnode, if_neg hj]
        split
        · rename_i h; subst h; exact ⟨rfl, rfl⟩
        · exact ⟨rfl, rfl⟩
      · intro j hj
        rw [hnode, if_neg hj, show (if j = p ∧ kids b.nextNode path g c = [] then b.nextNode else (b.nodes j).child) = (b.nodes j).child from if_neg fun h => hk h.2]
        split
        · rename_i h; subst h; rfl
        · rfl
      · intro j hj
        rw [hnode, if_neg hj, hx1]
        split
        · rename_i h; subst h; rw [if_pos rfl]
        · rename_i h
          rw [if_neg (by intro he; exact h (Option.some.inj he).symm)]
    refine ⟨b', heq, ⟨hn, by rw [hnew]⟩, ?_⟩
    exact inv_extend hi hrep hn hm (fun j hj => by
      rw [hnode, if_neg hj]
      split
      · rename_i h; subst h; exact ⟨rfl, rfl, rfl, rfl⟩
      · exact ⟨rfl, rfl, rfl, rfl⟩) (by rw [hnew]) (fun q hq => by rw [prim_unique hq hh]; exact hb) hin (fun j hj hj' => by
        rw [hnode, if_neg (by omega), if_neg]
        intro he
        subst he
        obtain ⟨-, t', ht'⟩ := mem_kids.1 hxm
        rw [ht'] at hj'
        simp at hj')

theorem insertChild_spec {b : Binder} {gs : List Nat} {cs : List (Nat × List Tok)} {bs : List Bound} {path : Path} (hi : Inv b gs cs bs path) (hc : Compatible cs) {p g : Nat}
    {c r : List Tok} {t : Tok} (hp : Prim path p g c) (hin : (g, c ++ t :: r) ∈ cs) :
    (512 < b.nextNode + 1 ∧ b.insertChild p t.key t.star = some (b, 0)) ∨
    ∃ b' path' i, b.insertChild p t.key t.star = some (b', i) ∧ b'.nextNode ≤ b.nextNode + 1 ∧ Inv b' gs cs bs path' ∧ Keeps b b' path path' ∧ Prim path' i g (c ++ [t]) := by
  unfold Binder.insertChild
  rcases findChild_chord hi hc hp hin with ⟨i, h1, h2⟩ | ⟨h1, h2⟩
  · right
    refine ⟨b, path, i, ?_, by omega, hi, keeps_refl b path, h2⟩
    rw [h1, Option.bind_some, if_pos (inv_pos hi h2.1)]
  · rw [h1, Option.bind_some, if_neg (by simp)]
    rcases addChild_spec hi hp h2 ⟨r, hin⟩ with h | ⟨b', h3, h4, h5, h6, h7⟩
    · exact .inl h
    · exact .inr ⟨b', _, _, h3, by omega, h5, h6, h7⟩

/-- The chord is added. -/
theorem insert_spec {gs : List Nat} {cs : List (Nat × List Tok)} {bs : List Bound} (hc : Compatible cs) {hasParams : Bool} {g : Nat} (keys : List Nat) {b : Binder} {path : Path}
    (hi : Inv b gs cs bs path) {p : Nat} {c : List Tok} (hp : Prim path p g c) (hin : (g, c ++ toks hasParams keys) ∈ cs) :
    ∃ b' path' i, b.insert p hasParams keys = some (b', i) ∧ b'.nextNode ≤ b.nextNode + keys.length ∧ Inv b' gs cs bs path' ∧ Keeps b b' path path' ∧
      ((i = 0 ∧ keys ≠ [] ∧ 512 < b.nextNode + keys.length) ∨ Prim path' i g (c ++ toks hasParams keys)) := by
  induction keys generalizing b path p c with
  | nil => exact ⟨b, path, p, rfl, by simp, hi, keeps_refl b path, .inr (by simpa [toks] using hp)⟩
  | cons k keys ih =>
    rw [Binder.insert]
    have hin' : (g, c ++ (⟨k, hasParams && k == 42⟩ : Tok) :: toks hasParams keys) ∈ cs := hin
    rcases insertChild_spec hi hc hp hin' with ⟨h1, h2⟩ | ⟨b', path', i, h1, h2, h3, h4, h5⟩
    · simp only at h2
      refine ⟨b, path, 0, ?_, by omega, hi, keeps_refl b path, .inl ⟨rfl, by simp, by simp; omega⟩⟩
      rw [h2]
      rfl
    · simp only at h1
      obtain ⟨b2, path2, i2, g1, g2, g3, g4, g5⟩ := ih h3 h5 (by simpa using hin')
      refine ⟨b2, path2, i2, ?_, by simp; omega, g3, keeps_trans h4 g4, ?_⟩
      · rw [h1, Option.bind_some]
        simp only
        rw [if_neg (inv_pos h3 h5.1), g1]
      · rcases g5 with ⟨e1, e2, e3⟩ | g5
        · exact .inl ⟨e1, by simp, by simp; omega⟩
        · refine .inr ?_
          simpa [toks] using g5

theorem rep_congr {b b' : Binder} {gs : List Nat} {path : Path} (hr : Rep b gs path) (hn : b'.nextNode = b.nextNode)
    (h : ∀ j, (b'.nodes j).key = (b.nodes j).key ∧ (b'.nodes j).next = (b.nodes j).next ∧ (b'.nodes j).child = (b.nodes j).child ∧ (b'.nodes j).hasParams = (b.nodes j).hasParams) :
    Rep b' gs path := by
  refine ⟨by rw [hn]; exact hr.next, by rw [hn]; exact hr.alloc, hr.roots, hr.parent, ?_, ?_, ?_, ?_, ?_⟩
  · intro g hg
    rw [(h g).1, (h g).2.1, (h g).2.2.2]
    exact hr.root g hg
  · intro i g c t hi
    rw [(h i).1]
    exact hr.keys i g c t hi
  · intro i g c t hi
    rw [(h i).2.2.2]
    exact hr.prim i g c t hi
  · intro i g c hi hp
    rw [(h i).2.2.1, (h i).2.2.2]
    exact hr.dup i g c hi hp
  · intro p g c hp
    have := hr.chain p g c hp
    rw [hn, (h p).2.2.1]
    split
    · rename_i he
      rw [if_pos he] at this
      exact this
    · rename_i he
      rw [if_neg he] at this
      exact links_congr _ (fun j _ => (h j).2.1) this

theorem range_filter_snoc {P Q : Nat → Bool} {i : Nat} (n : Nat) (hi : i < n) (hP : ∀ j, P j = true → j < i) (hQ : ∀ j, Q j = (P j || decide (j = i))) :
    (List.range n).filter Q = (List.range n).filter P ++ [i] := by
  induction n with
  | zero => omega
  | succ n ih =>
    rw [List.range_succ, List.filter_append, List.filter_append]
    by_cases h : n = i
    · subst h
      have h1 : P n = false := by
        cases hp : P n with
        | false => rfl
        | true => have := hP n hp; omega
      have h2 : Q n = true := by rw [hQ]; simp
      rw [range_filter_congr (P := Q) (Q := P) (fun j hj => by rw [hQ]; simp; omega)]
      simp [h1, h2]
    · have h1 : P n = false := by
        cases hp : P n with
        | false => rfl
        | true => have := hP n hp; omega
      have h2 : Q n = false := by rw [hQ, h1]; simp [h]
      rw [ih (by omega)]
      simp [h1, h2]

/-- A node becomes a binding. -/
theorem inv_bind {b : Binder} {gs : List Nat} {cs : List (Nat × List Tok)} {bs : List Bound} {path : Path} (hi : Inv b gs cs bs path) {i g : Nat} {c : List Tok} {m module id : Nat}
    (hp : path i = some (g, c)) (hb : (b.nodes i).bound = false) (hlast : ∀ j, path j = some (g, c) → (b.nodes j).bound = true → j < i) (hm : b.modules[m]? = some module) :
    Inv (b.set i { b.nodes i with module := m, bound := true, depth := c.length % 16, id := id }) gs cs (bs ++ [⟨g, c, module, id⟩]) path := by
  obtain ⟨b', hb'⟩ : ∃ b', b' = b.set i { b.nodes i with module := m, bound := true, depth := c.length % 16, id := id } := ⟨_, rfl⟩
  rw [← hb']
  have hnode : ∀ j, b'.nodes j = if j = i then { b.nodes i with module := m, bound := true, depth := c.length % 16, id := id } else b.nodes j := fun j => by rw [hb']; rfl
  have hn : b'.nextNode = b.nextNode := by rw [hb']; rfl
  have hmod : b'.modules = b.modules := by rw [hb']; rfl
  have hself : b'.nodes i = { b.nodes i with module := m, bound := true, depth := c.length % 16, id := id } := by rw [hnode, if_pos rfl]
  have hother : ∀ j, j ≠ i → b'.nodes j = b.nodes j := fun j hj => by rw [hnode, if_neg hj]
  have hmlt : m < b.modules.length := by
    rcases Nat.lt_or_ge m b.modules.length with h | h
    · exact h
    · rw [List.getElem?_eq_none h] at hm; simp at hm
  refine ⟨rep_congr hi.rep hn ?_, ?_, ?_, ?_, ?_, hi.paths, hi.stars⟩
  · intro j
    by_cases h : j = i
    · subst h; rw [hself]; exact ⟨rfl, rfl, rfl, rfl⟩
    · rw [hother j h]; exact ⟨rfl, rfl, rfl, rfl⟩
  · intro j g' c' h hb
    by_cases hj : j = i
    · subst hj
      rw [hp] at h
      cases h
      rw [hself]
    · rw [hother j hj] at hb ⊢
      exact hi.depth j g' c' h hb
  · intro j p g' c' h hne hpr
    by_cases hpi : p = i
    · subst hpi; rw [hself]
    · rw [hother p hpi]
      exact hi.dups j p g' c' h hne hpr
  · intro g' c'
    rw [hn, List.filter_append, List.map_append, hmod]
    by_cases he : g' = g ∧ c' = c
    · obtain ⟨rfl, rfl⟩ := he
      rw [range_filter_snoc (P := fun j => decide (path j = some (g', c')) && (b.nodes j).bound) (i := i) b.nextNode (hi.rep.alloc i _ hp).2]
      · rw [List.map_append]
        congr 1
        · rw [← hi.binds g' c']
          apply List.map_congr_left
          intro j hj
          have h1 := (List.mem_filter.1 hj).2
          rw [Bool.and_eq_true, decide_eq_true_eq] at h1
          have := hlast j h1.1 h1.2
          rw [hother j (by omega)]
        · simp [hself, hm]
      · intro j hj
        rw [Bool.and_eq_true, decide_eq_true_eq] at hj
        exact hlast j hj.1 hj.2
      · intro j
        by_cases hj : j = i
        · subst hj; rw [hself]; simp [hp]
        · rw [hother j hj]; simp [hj]
    · rw [show ([⟨g, c, module, id⟩] : List Bound).filter (fun x => decide (x.group = g' ∧ x.chord = c')) = [] from by
        rw [List.filter_cons]
        rw [show decide ((⟨g, c, module, id⟩ : Bound).group = g' ∧ (⟨g, c, module, id⟩ : Bound).chord = c') = false from by
          rw [decide_eq_false_iff_not]
          intro h
          exact he ⟨h.1.symm, h.2.symm⟩]
        rfl, List.map_nil, List.append_nil, ← hi.binds g' c']
      have hne : ∀ j, path j = some (g', c') → j ≠ i := by
        intro j h hj
        subst hj
        rw [hp] at h
        cases h
        exact he ⟨rfl, rfl⟩
      rw [range_filter_congr (Q := fun j => decide (path j = some (g', c')) && (b.nodes j).bound)]
      · apply List.map_congr_left
        intro j hj
        have h1 := (List.mem_filter.1 hj).2
        rw [Bool.and_eq_true, decide_eq_true_eq] at h1
        rw [hother j (hne j h1.1)]
      · intro j _
        by_cases h : path j = some (g', c')
        · rw [hother j (hne j h)]
        · simp [h]
  · intro j x h hb
    rw [hmod]
    by_cases hj : j = i
    · subst hj; rw [hself]; exact hmlt
    · rw [hother j hj] at hb ⊢
      exact hi.mods j x h hb

theorem inv_calls {b : Binder} {gs : List Nat} {cs cs' : List (Nat × List Tok)} {bs : List Bound} {path : Path} (hi : Inv b gs cs bs path) (hsub : ∀ x ∈ cs, x ∈ cs')
    (hst : ∀ x ∈ cs', ∀ t ∈ x.2, t.star = true → t.key = 42) : Inv b gs cs' bs path :=
  ⟨hi.rep, hi.depth, hi.dups, hi.binds, hi.mods, fun i g c h => (hi.paths i g c h).imp_right fun ⟨c', h1, h2⟩ => ⟨c', hsub _ h1, h2⟩, hst⟩

theorem addModule_spec {b : Binder} {gs : List Nat} {cs : List (Nat × List Tok)} {bs : List Bound} {path : Path} (hi : Inv b gs cs bs path) (module : Nat) :
    (b.addModule module = none ∧ 32 ≤ b.modules.length) ∨ ∃ b' m, b.addModule module = some (b', m) ∧ b'.modules[m]? = some module ∧ Inv b' gs cs bs path ∧ b'.nodes = b.nodes ∧ b'.nextNode = b.nextNode := by
  unfold Binder.addModule
  by_cases h : module ∈ b.modules
  · rw [if_pos h]
    exact .inr ⟨b, _, rfl, List.getElem?_idxOf h, hi, rfl, rfl⟩
  · rw [if_neg h]
    by_cases hlen : b.modules.length < 32
    · rw [if_pos hlen]
      refine .inr ⟨_, _, rfl, by simp, ?_, rfl, rfl⟩
      refine ⟨rep_congr hi.rep rfl fun j => ⟨rfl, rfl, rfl, rfl⟩, hi.depth, hi.dups, ?_, ?_, hi.paths, hi.stars⟩
      · intro g c
        rw [← hi.binds g c]
        apply List.map_congr_left
        intro j hj
        have h1 := (List.mem_filter.1 hj).2
        rw [Bool.and_eq_true, decide_eq_true_eq] at h1
        have := hi.mods j _ h1.1 h1.2
        simp only
        rw [List.getElem?_append_left this]
      · intro i x h1 h2
        have := hi.mods i x h1 h2
        simp only [List.length_append, List.length_singleton]
        omega
    · rw [if_neg hlen]
      exact .inl ⟨rfl, by omega⟩

/-- Nodes that are not in the trie stay as they are. -/
def Frame (b b' : Binder) (path path' : Path) : Prop := b.nextNode ≤ b'.nextNode ∧ ∀ i, i < b.nextNode → path i = none → path' i = none ∧ b'.nodes i = b.nodes i

theorem keeps_frame {b b' : Binder} {path path' : Path} (h : Keeps b b' path path') : Frame b b' path path' :=
  ⟨h.le, fun i hi hn => ⟨(h.same i hi).trans hn, h.frame i hi hn⟩⟩

theorem frame_trans {b1 b2 b3 : Binder} {p1 p2 p3 : Path} (h1 : Frame b1 b2 p1 p2) (h2 : Frame b2 b3 p2 p3) : Frame b1 b3 p1 p3 := by
  refine ⟨Nat.le_trans h1.1 h2.1, fun i hi hn => ?_⟩
  obtain ⟨a1, a2⟩ := h1.2 i hi hn
  obtain ⟨a3, a4⟩ := h2.2 i (Nat.lt_of_lt_of_le hi h1.1) a1
  exact ⟨a3, a4.trans a2⟩

theorem frame_set {b : Binder} {path : Path} {i : Nat} {n : Node} {x : Nat × List Tok} (h : path i = some x) : Frame b (b.set i n) path path := by
  refine ⟨Nat.le_refl _, fun j _ hn => ⟨hn, ?_⟩⟩
  show (if j = i then n else b.nodes j) = _
  rw [if_neg]
  intro he
  subst he
  rw [h] at hn
  simp at hn

theorem toks_getLast (hp : Bool) (keys : List Nat) (hk : keys ≠ []) : ∃ c t, toks hp keys = c ++ [t] ∧ keys.getLast? = some t.key := by
  rcases List.eq_nil_or_concat keys with rfl | ⟨l, k, rfl⟩
  · exact absurd rfl hk
  · exact ⟨toks hp l, ⟨k, hp && k == 42⟩, by simp [toks], by simp⟩

theorem root_prim {b : Binder} {gs : List Nat} {path : Path} (hr : Rep b gs path) {g : Nat} (hg : g ∈ gs) : Prim path g g [] := by
  refine ⟨(hr.roots g g).2 ⟨rfl, hg⟩, fun j hj h => ?_⟩
  have := ((hr.roots j g).1 h).1
  omega

/-- `bind`. -/
theorem bindKeys_spec {b : Binder} {gs : List Nat} {cs : List (Nat × List Tok)} {bs : List Bound} {path : Path} (hi : Inv b gs cs bs path) (hc : Compatible cs) {g : Nat} (hg : g ∈ gs)
    {hasParams : Bool} {keys : List Nat} {module id : Nat} (hin : (g, toks hasParams keys) ∈ cs) :
    (keys = [] ∧ (b.nodes g).bound = true ∧ b.addModule module ≠ none ∧ b.bindKeys g keys module id hasParams = none) ∨
    ∃ b' ok path', b.bindKeys g keys module id hasParams = some (b', ok) ∧ Inv b' gs cs (if ok then bs ++ [⟨g, toks hasParams keys, module, id⟩] else bs) path' ∧ Frame b b' path path' ∧
      ¬ (keys = [] ∧ (b.nodes g).bound = true ∧ b.addModule module ≠ none) ∧ (b.nextNode + keys.length + 1 ≤ 512 → b.modules.length < 32 → ok = true) ∧ b'.nextNode ≤ b.nextNode + keys.length + 1 := by
  rcases addModule_spec hi module with ⟨h1, h2⟩ | ⟨b1, m, h1, h2, h3, h4, h5⟩
  · right
    refine ⟨b, false, path, ?_, hi, keeps_frame (keeps_refl b path), by simp [h1], by omega, by omega⟩
    rw [Binder.bindKeys, h1]
  · have hfr : Frame b b1 path path := ⟨by omega, fun i _ hn => ⟨hn, by rw [h4]⟩⟩
    obtain ⟨b2, path2, i, k1, k2, k3, k4, k5⟩ := insert_spec (hasParams := hasParams) hc keys h3 (root_prim h3.rep hg) (by simpa using hin)
    rw [List.nil_append] at k5
    have hfr2 := frame_trans hfr (keeps_frame k4)
    have hbk : b.bindKeys g keys module id hasParams = (if keys ≠ [] ∧ i = 0 then some (b2, false)
      else
        (if (b2.nodes i).bound then (keys.getLast?).bind (b2.append i) else some (b2, i)).map fun (b, head) =>
          if head = 0 then (b, false)
          else (b.set head { b.nodes head with module := m, bound := true, depth := keys.length % 16, id := id }, true)) := by
      rw [Binder.bindKeys, h1]
      simp only
      rw [k1, Option.bind_some]
    have hlen : (toks hasParams keys).length = keys.length := by simp [toks]
    rcases k5 with ⟨e1, e2, e3⟩ | k5
    · right
      refine ⟨b2, false, path2, ?_, k3, hfr2, fun h => e2 h.1, by omega, by omega⟩
      rw [hbk, if_pos ⟨e2, e1⟩]
    · have hi0 := inv_pos k3 k5.1
      rw [if_neg (fun h => hi0 h.2)] at hbk
      have hm2 : b2.modules[m]? = some module := by rw [k4.modules]; exact h2
      cases hb : (b2.nodes i).bound with
      | false =>
        right
        rw [hb, if_neg (by simp), Option.map_some] at hbk
        simp only at hbk
        rw [if_neg hi0] at hbk
        have hinv := inv_bind (id := id) k3 k5.1 hb (fun j hj hjb => by
          exfalso
          by_cases hji : j = i
          · subst hji; rw [hb] at hjb; simp at hjb
          · rw [k3.dups j i _ _ hj hji k5] at hb; simp at hb) hm2
        rw [hlen] at hinv
        refine ⟨_, true, path2, hbk, hinv, frame_trans hfr2 (frame_set k5.1), ?_, fun _ _ => rfl, by show b2.nextNode ≤ _; omega⟩
        rintro ⟨rfl, h6, -⟩
        rw [Binder.insert] at k1
        cases k1
        rw [h4, h6] at hb
        simp at hb
      | true =>
        rw [hb, if_pos rfl] at hbk
        by_cases hk : keys = []
        · left
          subst hk
          rw [Binder.insert] at k1
          cases k1
          rw [h4] at hb
          exact ⟨rfl, hb, by simp [h1], by rw [hbk]; rfl⟩
        · right
          obtain ⟨c, t, ht, hlast⟩ := toks_getLast hasParams keys hk
          rw [hlast, Option.bind_some] at hbk
          rw [ht] at k5
          rcases append_spec k3 k5 hb ⟨[], by rw [← ht]; exact hin⟩ with ⟨f1, f2⟩ | ⟨b3, f1, f2, f3, f4⟩
          · refine ⟨b2, false, path2, ?_, k3, hfr2, fun h => hk h.1, ?_, by omega⟩
            · rw [hbk, f2]
              rfl
            · intro h6 h7
              exfalso
              omega
          · have hne : b2.nextNode ≠ 0 := by
              have := (k3.rep.alloc i _ k5.1).2
              omega
            rw [f1, Option.map_some] at hbk
            simp only at hbk
            rw [if_neg hne] at hbk
            have hnb := f2.2
            have f2 := f2.1
            have hinv := inv_bind (id := id) f3 upd_eq hnb (fun j hj hjb => by
              have h6 := (f3.rep.alloc j _ hj).2
              rcases Nat.lt_or_ge j b2.nextNode with h7 | h7
              · exact h7
              · have : j = b2.nextNode := by omega
                subst this
                rw [hnb] at hjb
                simp at hjb) (by rw [f4.modules]; exact hm2)
            rw [← ht, hlen] at hinv
            rw [← ht] at f3 f4
            refine ⟨_, true, _, hbk, hinv, frame_trans hfr2 (frame_trans (keeps_frame f4) (frame_set upd_eq)), fun h => hk h.1, fun _ _ => rfl, by show b3.nextNode ≤ _; omega⟩

theorem path_group {b : Binder} {gs : List Nat} {path : Path} (hr : Rep b gs path) {g : Nat} (n : Nat) {i : Nat} {c : List Tok} (hn : c.length = n) (h : path i = some (g, c)) : g ∈ gs := by
  induction n generalizing i c with
  | zero =>
    rw [List.length_eq_zero_iff] at hn
    subst hn
    exact ((hr.roots i g).1 h).2
  | succ n ih =>
    rcases List.eq_nil_or_concat c with rfl | ⟨c, t, rfl⟩
    · simp at hn
    · rw [List.concat_eq_append] at h hn
      obtain ⟨p, hp, -⟩ := hr.parent i g c t h
      exact ih (by simpa using hn) hp.1

/-- `create_group`. -/
theorem createGroup_spec {b : Binder} {gs : List Nat} {cs : List (Nat × List Tok)} {bs : List Bound} {path : Path} (hi : Inv b gs cs bs path) (hpos : 0 < b.nextNode) (hash : Option Nat) :
    (b.createGroup hash = (b, -1) ∧ (hash = none ∨ 512 < b.nextNode + 2)) ∨
    ∃ b' h, hash = some h ∧ b.createGroup hash = (b', ((b.nextNode + 1 : Nat) : Int)) ∧ b'.nextNode = b.nextNode + 2 ∧
      Inv b' ((b.nextNode + 1) :: gs) cs bs (upd path (b.nextNode + 1) (b.nextNode + 1, [])) ∧
      (∀ j, j ≠ 0 → j < b.nextNode → b'.nodes j = b.nodes j) ∧ (b'.nodes b.nextNode).isGroup = true ∧ (b'.nodes b.nextNode).hash = h ∧
      (b'.nodes b.nextNode).next = (b.nodes 0).next ∧ (b'.nodes 0).next = b.nextNode ∧ (b'.nodes 0).isGroup = (b.nodes 0).isGroup := by
  cases hash with
  | none => exact .inl ⟨rfl, .inl rfl⟩
  | some h =>
    by_cases hfull : 512 < b.nextNode + 2
    · left
      refine ⟨?_, .inr hfull⟩
      rw [Binder.createGroup, show b.alloc 2 = none from by rw [Binder.alloc, size, if_pos hfull]]
    · right
      obtain ⟨b', hb'⟩ : ∃ b', b' = ((({ b with nextNode := b.nextNode + 2 } : Binder).set b.nextNode { b.nodes b.nextNode with isGroup := true, hash := h, next := (b.nodes 0).next }).set 0
        { (if 0 = b.nextNode then { b.nodes b.nextNode with isGroup := true, hash := h, next := (b.nodes 0).next } else b.nodes 0) with next := b.nextNode }).set (b.nextNode + 1) {} := ⟨_, rfl⟩
      have heq : b.createGroup (some h) = (b', ((b.nextNode + 1 : Nat) : Int)) := by
        rw [Binder.createGroup, show b.alloc 2 = some ({ b with nextNode := b.nextNode + 2 }, b.nextNode) from by rw [Binder.alloc, size, if_neg hfull], hb']
        rfl
      have hnode : ∀ j, j ≠ 0 → j ≠ b.nextNode → j ≠ b.nextNode + 1 → b'.nodes j = b.nodes j := by
        intro j h1 h2 h3
        rw [hb']
        simp [Binder.set, h1, h2, h3]
      have hroot : b'.nodes (b.nextNode + 1) = {} := by rw [hb']; simp [Binder.set]
      have hn : b'.nextNode = b.nextNode + 2 := by rw [hb']; rfl
      have hmod : b'.modules = b.modules := by rw [hb']; rfl
      have halloc : ∀ i y, path i = some y → 0 < i ∧ i < b.nextNode := hi.rep.alloc
      have hold : ∀ i y, path i = some y → b'.nodes i = b.nodes i := fun i y hy => by
        have := halloc i y hy
        exact hnode i (by omega) (by omega) (by omega)
      have hpo : ∀ i g c, path i = some (g, c) → g ≠ b.nextNode + 1 := by
        intro i g c h1 h2
        have h3 := path_group hi.rep _ rfl h1
        have h4 := halloc g _ ((hi.rep.roots g g).2 ⟨rfl, h3⟩)
        omega
      have hnone : ∀ i, b.nextNode ≤ i → path i = none := by
        intro i h1
        cases hp : path i with
        | none => rfl
        | some y => have := halloc i y hp; omega
      obtain ⟨path', hpath'⟩ : ∃ path', path' = upd path (b.nextNode + 1) (b.nextNode + 1, []) := ⟨_, rfl⟩
      have hself : path' (b.nextNode + 1) = some (b.nextNode + 1, []) := by rw [hpath', upd_eq]
      have hother : ∀ i, i ≠ b.nextNode + 1 → path' i = path i := fun i h1 => by rw [hpath', upd_ne h1]
      have hcase : ∀ i g c, path' i = some (g, c) → (i = b.nextNode + 1 ∧ g = b.nextNode + 1 ∧ c = []) ∨ (i ≠ b.nextNode + 1 ∧ path i = some (g, c)) := by
        intro i g c h1
        by_cases h2 : i = b.nextNode + 1
        · subst h2
          rw [hself] at h1
          cases h1
          exact .inl ⟨rfl, rfl, rfl⟩
        · rw [hother i h2] at h1
          exact .inr ⟨h2, h1⟩
      have hup : ∀ i g c, path i = some (g, c) → path' i = some (g, c) := fun i g c h1 => by
        have := halloc i _ h1
        rw [hother i (by omega)]; exact h1
      have hprim : ∀ i g c, path i = some (g, c) → (Prim path' i g c ↔ Prim path i g c) := by
        intro i g c h1
        constructor
        · intro h2
          exact ⟨h1, fun j hj h3 => h2.2 j hj (hup j g c h3)⟩
        · intro h2
          refine ⟨hup i g c h1, fun j hj h3 => ?_⟩
          rcases hcase j g c h3 with ⟨-, e, -⟩ | ⟨-, e⟩
          · exact hpo i g c h1 e
          · exact h2.2 j hj e
      have hkids : ∀ g c, kids (b.nextNode + 2) path' g c = kids b.nextNode path g c := by
        intro g c
        unfold kids
        rw [show b.nextNode + 2 = b.nextNode + 1 + 1 from rfl, List.range_succ, List.range_succ, List.filter_append, List.filter_append]
        have h1 : isKid path' g c b.nextNode = false := by
          unfold isKid
          rw [hother _ (by omega), hnone _ (Nat.le_refl _)]
        have h2 : isKid path' g c (b.nextNode + 1) = false := by
          unfold isKid
          rw [hself]
          simp
        simp only [List.filter_cons, h1, h2, Bool.false_eq_true, if_false, List.filter_nil, List.append_nil]
        apply range_filter_congr
        intro i hi'
        unfold isKid
        rw [hother i (by omega)]
      refine ⟨b', h, rfl, heq, hn, ?_, fun j h1 h2 => hnode j h1 (by omega) (by omega), ?_, ?_, ?_, ?_, ?_⟩
      · rw [← hpath']
        refine ⟨⟨by omega, ?_, ?_, ?_, ?_, ?_, ?_, ?_, ?_⟩, ?_, ?_, ?_, ?_, ?_, hi.stars⟩
        · rintro i ⟨g, c⟩ h1
          rcases hcase i g c h1 with ⟨e, -, -⟩ | ⟨-, e⟩
          · omega
          · have := halloc i _ e; omega
        · intro i g
          constructor
          · intro h1
            rcases hcase i g [] h1 with ⟨e1, e2, -⟩ | ⟨-, e⟩
            · exact ⟨by omega, by rw [e2]; simp⟩
            · have := (hi.rep.roots i g).1 e
              exact ⟨this.1, List.mem_cons_of_mem _ this.2⟩
          · rintro ⟨rfl, h1⟩
            rcases List.mem_cons.1 h1 with e | e
            · rw [e]; exact hself
            · exact hup _ _ _ ((hi.rep.roots i i).2 ⟨rfl, e⟩)
        · intro i g c t h1
          rcases hcase i g _ h1 with ⟨-, -, e⟩ | ⟨-, e⟩
          · simp at e
          · obtain ⟨p, hp, hlt⟩ := hi.rep.parent i g c t e
            exact ⟨p, (hprim p g c hp.1).2 hp, hlt⟩
        · intro g h1
          rcases List.mem_cons.1 h1 with e | e
          · rw [e, hroot]; exact ⟨rfl, rfl, rfl⟩
          · rw [hold g _ ((hi.rep.roots g g).2 ⟨rfl, e⟩)]
            exact hi.rep.root g e
        · intro i g c t h1
          rcases hcase i g _ h1 with ⟨-, -, e⟩ | ⟨-, e⟩
          · simp at e
          · rw [hold i _ e]
            exact hi.rep.keys i g c t e
        · intro i g c t h1
          rcases hcase i g _ h1.1 with ⟨-, -, e⟩ | ⟨-, e⟩
          · simp at e
          · rw [hold i _ e]
            exact hi.rep.prim i g c t ((hprim _ _ _ e).1 h1)
        · intro i g c h1 h2
          rcases hcase i g _ h1 with ⟨e1, e2, e3⟩ | ⟨-, e⟩
          · rw [e1, hroot]; exact ⟨rfl, rfl⟩
          · rw [hold i _ e]
            exact hi.rep.dup i g c e fun h3 => h2 ((hprim _ _ _ e).2 h3)
        · intro p g c h1
          rw [hn, hkids]
          rcases hcase p g _ h1.1 with ⟨e1, e2, e3⟩ | ⟨-, e⟩
          · have hk : kids b.nextNode path g c = [] := by
              apply List.eq_nil_iff_forall_not_mem.2
              intro i h2
              obtain ⟨-, t, ht⟩ := mem_kids.1 h2
              exact hpo i g _ ht e2
            rw [if_pos hk, e1, hroot]
          · have h2 := hi.rep.chain p g c ((hprim _ _ _ e).1 h1)
            rw [hold p _ e]
            split
            · rename_i hk
              rw [if_pos hk] at h2
              exact h2
            · rename_i hk
              rw [if_neg hk] at h2
              refine links_congr _ (fun j hj => ?_) h2
              obtain ⟨-, t, ht⟩ := mem_kids.1 hj
              rw [hold j _ ht]
        · intro i g c h1 h2
          rcases hcase i g _ h1 with ⟨e1, e2, e3⟩ | ⟨-, e⟩
          · rw [e1, hroot] at h2; simp at h2
          · rw [hold i _ e] at h2 ⊢
            exact hi.depth i g c e h2
        · intro i p g c h1 h2 h3
          rcases hcase i g _ h1 with ⟨e1, e2, e3⟩ | ⟨-, e⟩
          · exfalso
            rcases hcase p g _ h3.1 with ⟨e4, -, -⟩ | ⟨-, e4⟩
            · omega
            · exact hpo p g c e4 e2
          · rcases hcase p g _ h3.1 with ⟨-, e4, -⟩ | ⟨-, e4⟩
            · exact absurd e4 (hpo i g c e)
            · rw [hold p _ e4]
              exact hi.dups i p g c e h2 ((hprim _ _ _ e4).1 h3)
        · intro g c
          rw [hn, hmod, ← hi.binds g c, show b.nextNode + 2 = b.nextNode + 1 + 1 from rfl, List.range_succ, List.range_succ, List.filter_append, List.filter_append]
          have h1 : (decide (path' b.nextNode = some (g, c)) && (b'.nodes b.nextNode).bound) = false := by
            rw [hother _ (by omega), hnone _ (Nat.le_refl _)]
            simp
          have h2 : (decide (path' (b.nextNode + 1) = some (g, c)) && (b'.nodes (b.nextNode + 1)).bound) = false := by
            rw [hroot]
            simp
          simp only [List.filter_cons, h1, h2, Bool.false_eq_true, if_false, List.filter_nil, List.append_nil]
          rw [range_filter_congr (Q := fun j => decide (path j = some (g, c)) && (b.nodes j).bound)]
          · apply List.map_congr_left
            intro j hj
            have h1 := (List.mem_filter.1 hj).2
            rw [Bool.and_eq_true, decide_eq_true_eq] at h1
            rw [hold j _ h1.1]
          · intro j hj
            rw [hother j (by omega)]
            by_cases h : path j = some (g, c)
            · rw [hold j _ h]
            · simp [h]
        · rintro i ⟨g, c⟩ h1 h2
          rcases hcase i g _ h1 with ⟨e1, e2, e3⟩ | ⟨-, e⟩
          · rw [e1, hroot] at h2; simp at h2
          · rw [hold i _ e] at h2 ⊢
            rw [hmod]
            exact hi.mods i _ e h2
        · intro i g c h1
          rcases hcase i g _ h1 with ⟨e1, e2, e3⟩ | ⟨-, e⟩
          · exact .inl e3
          · exact hi.paths i g c e
      all_goals
        rw [hb']
        have : b.nextNode ≠ 0 := by omega
        simp [Binder.set, this, Ne.symm this]

/-- The list of groups. -/
def GLinks (b : Binder) (path : Path) : Nat → List (Option Nat × Nat) → Prop
  | _, [] => False
  | s, [x] => s = 0 ∧ x = (none, 1)
  | s, x :: l => 0 < s ∧ s < b.nextNode ∧ path s = none ∧ x = (some (b.nodes s).hash, s + 1) ∧ (b.nodes s).isGroup = true ∧ (b.nodes s).next < s ∧ GLinks b path (b.nodes s).next l

theorem glinks_frame {b b' : Binder} {path path' : Path} (hle : b.nextNode ≤ b'.nextNode) (l : List (Option Nat × Nat)) {s : Nat}
    (hf : ∀ i, 0 < i → i < b.nextNode → path i = none → path' i = none ∧ b'.nodes i = b.nodes i) (h : GLinks b path s l) : GLinks b' path' s l := by
  induction l generalizing s with
  | nil => exact h
  | cons x l ih =>
    cases l with
    | nil => exact h
    | cons y l =>
      obtain ⟨h1, h2, h3, h4, h5, h6, h7⟩ := h
      obtain ⟨f1, f2⟩ := hf s h1 h2 h3
      exact ⟨h1, by omega, f1, by rw [f2]; exact h4, by rw [f2]; exact h5, by rw [f2]; exact h6, by rw [f2]; exact ih h7⟩

/-- A binder that was made by calls. -/
structure Full (b : Binder) (gs : List (Option Nat × Nat)) (cs : List (Nat × List Tok)) (bs : List Bound) (path : Path) : Prop where
  inv : Inv b (gs.map (·.2)) cs bs path
  pos : 2 ≤ b.nextNode
  glinks : GLinks b path (b.nodes 0).next gs
  master : (b.nodes 0).isGroup = true
  count : b.nextNode ≤ 2 * gs.length + (cs.map fun x => x.2.length + 1).sum

theorem toks_star {hasParams : Bool} {keys : List Nat} {t : Tok} (h : t ∈ toks hasParams keys) (hs : t.star = true) : t.key = 42 := by
  simp only [toks, List.mem_map] at h
  obtain ⟨k, -, rfl⟩ := h
  simp at hs
  exact hs.2

theorem run_stars {esc : Option (List Nat)} {b : Binder} {gs : List (Option Nat × Nat)} {cs : List (Nat × List Tok)} {bs : List Bound} (h : Run esc b gs cs bs) :
    ∀ x ∈ cs, ∀ t ∈ x.2, t.star = true → t.key = 42 := by
  induction h with
  | start => simp
  | group h hc ih => exact ih
  | bind h hg ht hb ih =>
    intro x hx
    rcases List.mem_append.1 hx with h1 | h1
    · exact ih x h1
    · simp only [List.mem_singleton] at h1
      subst h1
      exact fun t h1 h2 => toks_star h1 h2

theorem compatible_sub {cs cs' : List (Nat × List Tok)} (h : ∀ x ∈ cs, x ∈ cs') (hc : Compatible cs') : Compatible cs :=
  ⟨fun g p t1 r1 t2 r2 h1 h2 => hc.1 g p t1 r1 t2 r2 (h _ h1) (h _ h2), fun g p t1 t2 r h1 => hc.2 g p t1 t2 r (h _ h1)⟩

theorem start_full : Full .start [(none, 1)] [] [] (fun i => if i = 1 then some (1, []) else none) := by
  have hp : ∀ i g c, (fun i => if i = 1 then some (1, []) else none : Path) i = some (g, c) ↔ i = 1 ∧ g = 1 ∧ c = [] := by
    intro i g c
    simp only
    split
    · simp only [Option.some.injEq, Prod.mk.injEq]
      constructor
      · rintro ⟨rfl, rfl⟩; exact ⟨by assumption, rfl, rfl⟩
      · rintro ⟨-, rfl, rfl⟩; exact ⟨rfl, rfl⟩
    · constructor
      · intro h; simp at h
      · rintro ⟨h, -⟩; contradiction
  have hk : ∀ g c, kids 2 (fun i => if i = 1 then some (1, []) else none) g c = [] := by
    intro g c
    apply List.eq_nil_iff_forall_not_mem.2
    intro i h2
    obtain ⟨-, t, ht⟩ := mem_kids.1 h2
    have := ((hp _ _ _).1 ht).2.2
    simp at this
  refine ⟨⟨⟨by decide, ?_, ?_, ?_, ?_, ?_, ?_, ?_, ?_⟩, ?_, ?_, ?_, ?_, ?_, by simp⟩, by decide, ⟨rfl, rfl⟩, rfl, by decide⟩
  · rintro i ⟨g, c⟩ h
    have := (hp _ _ _).1 h
    exact ⟨by omega, by show i < 2; omega⟩
  · intro i g
    rw [hp]
    simp
    omega
  · intro i g c t h
    have := ((hp _ _ _).1 h).2.2
    simp at this
  · intro g hg
    simp at hg
    subst hg
    decide
  · intro i g c t h
    have := ((hp _ _ _).1 h).2.2
    simp at this
  · intro i g c t h
    have := ((hp _ _ _).1 h.1).2.2
    simp at this
  · intro i g c h _
    have := ((hp _ _ _).1 h).1
    subst this
    exact ⟨rfl, rfl⟩
  · intro p g c h
    have h1 := ((hp _ _ _).1 h.1).1
    subst h1
    rw [if_pos (show kids Binder.start.nextNode _ g c = [] from hk g c)]
    rfl
  · intro i g c h hb
    have := ((hp _ _ _).1 h).1
    subst this
    simp [Binder.start] at hb
  · intro i p g c h hne hpr
    have h1 := ((hp _ _ _).1 h).1
    have h2 := ((hp _ _ _).1 hpr.1).1
    omega
  · intro g c
    rw [List.filter_nil, List.map_nil, List.map_eq_nil_iff]
    apply List.filter_eq_nil_iff.2
    intro i _
    have : (Binder.start.nodes i).bound = false := by
      unfold Binder.start
      simp only
      split <;> rfl
    rw [this]
    simp
  · rintro i ⟨g, c⟩ h hb
    have := ((hp _ _ _).1 h).1
    subst this
    simp [Binder.start] at hb
  · intro i g c h
    exact .inl ((hp _ _ _).1 h).2.2

theorem run_full {esc : Option (List Nat)} {b : Binder} {gs : List (Option Nat × Nat)} {cs : List (Nat × List Tok)} {bs : List Bound} (h : Run esc b gs cs bs) (hc : Compatible cs) :
    ∃ path, Full b gs cs bs path := by
  induction h with
  | start => exact ⟨_, start_full⟩
  | @group b b' gs cs bs hash r h hcr ih =>
    obtain ⟨path, hf⟩ := ih hc
    rcases createGroup_spec hf.inv (by have := hf.pos; omega) hash with ⟨h1, -⟩ | ⟨b2, x, e1, e2, e3, e4, e5, e6, e7, e8, e9, e10⟩
    · rw [h1] at hcr
      cases hcr
      exact ⟨path, hf⟩
    · rw [e2] at hcr
      cases hcr
      refine ⟨upd path (b.nextNode + 1) (b.nextNode + 1, []), ?_⟩
      rw [if_neg (by omega)]
      have hpos := hf.pos
      have hn : path b.nextNode = none := by
        cases hp : path b.nextNode with
        | none => rfl
        | some y => have := (hf.inv.rep.alloc _ y hp).2; omega
      have hlt : (b.nodes 0).next < b.nextNode := by
        have := hf.glinks
        cases gs with
        | nil => exact absurd this id
        | cons y l =>
          cases l with
          | nil => rw [this.1]; omega
          | cons z l => exact this.2.1
      refine ⟨by simpa using e4, by omega, ?_, by rw [e10]; exact hf.master, by
        have := hf.count
        simp only [List.length_cons]
        omega⟩
      have hg := glinks_frame (b' := b') (path' := upd path (b.nextNode + 1) (b.nextNode + 1, [])) (by omega) gs (fun i h1 h2 h3 => ⟨by rw [upd_ne (by omega)]; exact h3, e5 i (by omega) h2⟩) hf.glinks
      rw [e9]
      cases gs with
      | nil => exact absurd hg id
      | cons y l =>
        refine ⟨by omega, by omega, by rw [upd_ne (by omega)]; exact hn, ?_, e6, by rw [e8]; exact hlt, by rw [e8]; exact hg⟩
        rw [e1, e7]
        rfl
  | @bind b b' gs cs bs g text keys module id hasParams ok h hg ht hb ih =>
    obtain ⟨path, hf⟩ := ih (compatible_sub (fun x hx => List.mem_append_left _ hx) hc)
    have hst : ∀ x ∈ cs ++ [(g, toks hasParams keys)], ∀ t ∈ x.2, t.star = true → t.key = 42 := by
      intro x hx
      rcases List.mem_append.1 hx with h1 | h1
      · exact run_stars h x h1
      · simp only [List.mem_singleton] at h1
        subst h1
        exact fun t h1 h2 => toks_star h1 h2
    have hi := inv_calls hf.inv (cs' := cs ++ [(g, toks hasParams keys)]) (fun x hx => List.mem_append_left _ hx) hst
    have same : b' = b → ok = false → ∃ path, Full b' gs (cs ++ [(g, toks hasParams keys)]) (if ok then bs ++ [⟨g, toks hasParams keys, module, id⟩] else bs) path := by
      rintro rfl rfl
      exact ⟨path, hi, hf.pos, hf.glinks, hf.master, by
        have := hf.count
        simp only [List.map_append, List.sum_append]
        omega⟩
    unfold Binder.bind at hb
    split at hb
    · cases hb; exact same rfl rfl
    · cases htr : translate esc text with
      | none => rw [htr] at hb; cases hb; exact same rfl rfl
      | some ks =>
        rw [htr] at hb ht
        simp only [Option.getD_some] at ht hb
        subst ht
        have hg' : g ∈ gs.map (·.2) := by
          obtain ⟨name, hn⟩ := hg
          exact List.mem_map.2 ⟨_, hn, rfl⟩
        rcases bindKeys_spec (id := id) (module := module) hi hc hg' (List.mem_append_right _ (List.mem_singleton.2 rfl)) with ⟨-, -, -, h1⟩ | ⟨b2, ok2, path2, h1, h2, h3, -, -, h9⟩
        · rw [h1] at hb; simp at hb
        · rw [h1] at hb
          cases hb
          have h0 : path 0 = none := by
            cases hp : path 0 with
            | none => rfl
            | some y => have := (hf.inv.rep.alloc _ y hp).1; omega
          have hpos := hf.pos
          have hn0 := (h3.2 0 (by omega) h0).2
          refine ⟨path2, h2, by have := h3.1; omega, ?_, by rw [hn0]; exact hf.master, by
            have := hf.count
            simp only [List.map_append, List.sum_append, List.map_cons, List.map_nil, List.sum_cons, List.sum_nil, show (toks hasParams ks).length = ks.length from by simp [toks]]
            omega⟩
          rw [hn0]
          exact glinks_frame h3.1 gs (fun i _ h2 h4 => h3.2 i h2 h4) hf.glinks

end Clink.Bind
