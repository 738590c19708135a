import Verif.Spec.Columns

/-! Proofs about the layout of matches in columns. -/

namespace Clink.Columns
open Spec

/-! ### Rows and columns -/

theorem rowFrom_get (count limit minor : Nat) : ∀ n l t,
    (rowFrom count limit minor n l)[t]? = if t < n ∧ l + t * minor < count then some (l + t * minor) else none := by
  intro n
  induction n with
  | zero => intro l t; simp [rowFrom]
  | succ n ih =>
    intro l t
    unfold rowFrom
    by_cases h : l ≥ count
    · have : ¬ (t < n + 1 ∧ l + t * minor < count) := by
        intro ⟨_, h2⟩; have := Nat.zero_le (t * minor); omega
      rw [if_pos h, if_neg this]; rfl
    · rw [if_neg h]
      cases t with
      | zero =>
        have : (0 < n + 1 ∧ l + 0 * minor < count) := ⟨by omega, by omega⟩
        rw [if_pos this]; simp
      | succ t =>
        have e : l + minor + t * minor = l + (t + 1) * minor := by rw [Nat.succ_mul]; omega
        rw [List.getElem?_cons_succ, ih, e]
        by_cases h2 : t < n ∧ l + (t + 1) * minor < count
        · rw [if_pos h2, if_pos ⟨by omega, h2.2⟩]
        · rw [if_neg h2, if_neg]; intro h3; exact h2 ⟨by omega, h3.2⟩

theorem at_iff (v : Bool) (count n i c k : Nat) :
    At (rowsOf v count n) i c k ↔
      i < numRows count n ∧ c < n ∧ k < count ∧
        k = i * (if v then 1 else n) + c * (if v then numRows count n else 1) := by
  unfold At rowsOf
  constructor
  · rintro ⟨r, h1, h2⟩
    rw [List.getElem?_map] at h1
    by_cases hi : i < numRows count n
    · rw [List.getElem?_range hi] at h1
      simp only [Option.map_some, Option.some.injEq] at h1
      subst h1
      rw [rowFrom_get] at h2
      by_cases h3 : c < n ∧ i * (if v then 1 else n) + c * (if v then numRows count n else 1) < count
      · rw [if_pos h3] at h2
        have h2 := Option.some.inj h2
        exact ⟨hi, h3.1, by omega, by omega⟩
      · rw [if_neg h3] at h2; cases h2
    · rw [List.getElem?_eq_none (by simpa using hi)] at h1; cases h1
  · rintro ⟨h1, h2, h3, h4⟩
    refine ⟨_, by rw [List.getElem?_map, List.getElem?_range h1]; rfl, ?_⟩
    rw [rowFrom_get, if_pos ⟨h2, by omega⟩, ← h4]

theorem numRows_mul (count j : Nat) : count ≤ (count + j) / (j + 1) * (j + 1) := by
  have h := Nat.div_add_mod (count + j) (j + 1)
  have h2 : (count + j) % (j + 1) < j + 1 := Nat.mod_lt (count + j) (Nat.succ_pos j)
  rw [Nat.mul_comm] at h
  omega

theorem numRows_pos {count j : Nat} (h : 0 < count) : 0 < (count + j) / (j + 1) :=
  Nat.div_pos (by omega) (by omega)

theorem colIdx_lt {v : Bool} {count j k : Nat} (h : k < count) : colIdx v count j k < j + 1 := by
  unfold colIdx
  cases v with
  | false => exact Nat.mod_lt _ (by omega)
  | true =>
    simp only [if_true]
    have := numRows_mul count j
    rw [Nat.div_lt_iff_lt_mul (numRows_pos (by omega)), Nat.mul_comm]
    omega

theorem at_col {v : Bool} {count j i c k : Nat} (h : At (rowsOf v count (j + 1)) i c k) :
    k < count ∧ c = colIdx v count j k := by
  obtain ⟨h1, h2, h3, h4⟩ := (at_iff ..).1 h
  refine ⟨h3, ?_⟩
  unfold colIdx
  unfold numRows at h1 h4
  rw [show count + (j + 1 - 1) = count + j by omega] at h1 h4
  cases v with
  | false =>
    simp only [Bool.false_eq_true, if_false] at h4 ⊢
    rw [h4, Nat.mul_one, Nat.add_comm, Nat.add_mul_mod_self_right, Nat.mod_eq_of_lt h2]
  | true =>
    simp only [if_true] at h4 ⊢
    rw [h4, Nat.mul_one, Nat.add_mul_div_right _ _ (by omega), Nat.div_eq_of_lt h1]; omega

theorem col_at {v : Bool} {count j k : Nat} (h : k < count) :
    ∃ i, At (rowsOf v count (j + 1)) i (colIdx v count j k) k := by
  have hc := colIdx_lt (v := v) (j := j) h
  have hR := numRows_pos (j := j) (show 0 < count by omega)
  have hm := numRows_mul count j
  cases v with
  | false =>
    refine ⟨k / (j + 1), (at_iff ..).2 ⟨?_, hc, h, ?_⟩⟩
    · unfold numRows
      rw [show count + (j + 1 - 1) = count + j by omega, Nat.div_lt_iff_lt_mul (by omega)]
      omega
    · simp only [colIdx, Bool.false_eq_true, if_false]
      have := Nat.div_add_mod k (j + 1)
      rw [Nat.mul_comm] at this; omega
  | true =>
    refine ⟨k % ((count + j) / (j + 1)), (at_iff ..).2 ⟨?_, hc, h, ?_⟩⟩
    · unfold numRows
      rw [show count + (j + 1 - 1) = count + j by omega]
      exact Nat.mod_lt _ hR
    · simp only [colIdx, if_true]
      unfold numRows
      rw [show count + (j + 1 - 1) = count + j by omega]
      have := Nat.mod_add_div k ((count + j) / (j + 1))
      rw [Nat.mul_comm] at this; omega

theorem at_row {v : Bool} {count j i c k : Nat} (h : At (rowsOf v count (j + 1)) i c k) :
    i = if v then k % ((count + j) / (j + 1)) else k / (j + 1) := by
  obtain ⟨h1, h2, h3, h4⟩ := (at_iff ..).1 h
  unfold numRows at h1 h4
  rw [show count + (j + 1 - 1) = count + j by omega] at h1 h4
  cases v with
  | false =>
    simp only [Bool.false_eq_true, if_false] at h4 ⊢
    rw [h4, Nat.mul_one, Nat.add_comm, Nat.add_mul_div_right _ _ (by omega), Nat.div_eq_of_lt h2]; omega
  | true =>
    simp only [if_true] at h4 ⊢
    rw [h4, Nat.mul_one, Nat.add_mul_mod_self_right, Nat.mod_eq_of_lt h1]

/-! ### Widths without wrapping around -/

theorem w16_of {n : Nat} (h : n < 65536) : w16 n = n := Nat.mod_eq_of_lt h

theorem sub16_of {a b : Nat} (h : b ≤ a) (ha : a < 65536) : sub16 a b = a - b := by
  unfold sub16; rw [Nat.mod_eq_of_lt (show b < 65536 by omega)]; omega

theorem matchLen_eq {g : Cfg} {l : List Item} (hs : Small g l) {x : Item} (hx : x ∈ l) :
    matchLen g x = shown g x := by
  have h1 := hs.item x hx
  have h2 := hs.condense x hx
  unfold matchLen shown
  simp only
  generalize hc : g.condense = cd at *
  rw [w16_of (show g.extra < 65536 by omega)]
  by_cases hcd : Condensed g x
  · rw [if_pos hcd]
    have h2 := h2 hcd
    unfold Condensed at hcd
    unfold full at *
    cases hu : x.useDisplay <;> cases ha : x.append <;> cases hp : g.presuf <;> cases hl : x.longer <;>
      simp [hu, ha, hp, hl] at h2 hcd ⊢
    all_goals (unfold w16; try unfold sub16)
    all_goals first
      | omega
      | (split <;> omega)
  · rw [if_neg hcd]
    unfold Condensed at hcd
    unfold full at *
    cases hu : x.useDisplay <;> cases ha : x.append <;> cases hp : g.presuf <;> cases hl : x.longer <;>
      simp [hu, ha, hp, hl] at hcd ⊢
    all_goals unfold w16
    all_goals omega

theorem shown_le {g : Cfg} {l : List Item} (hs : Small g l) {x : Item} (hx : x ∈ l) : shown g x ≤ 30000 := by
  have h1 := hs.item x hx
  have : full g x ≤ 30000 := by unfold full; split <;> (try split) <;> omega
  unfold shown; split <;> omega

theorem descLen_eq (g : Cfg) (l : List Item) (x : Item) : descLen g (noJustify g l) x = described g x := by
  unfold descLen described
  cases hd : g.descs
  · simp
  · simp only [if_true]
    by_cases h : x.desc = 0
    · simp [h]
    · have h0 : min 1024 x.desc ≠ 0 := by omega
      rw [if_pos h0, if_pos ⟨trivial, h⟩]
      unfold descPad parens
      rw [hd]
      cases noJustify g l <;> simp <;> rw [w16_of] <;> omega

theorem described_le (g : Cfg) (x : Item) : described g x ≤ 1028 := by unfold described; split <;> omega

theorem pad_cases (g : Cfg) : g.pad = 2 ∨ g.pad = 4 := by unfold Cfg.pad; split <;> simp

theorem width_le (g : Cfg) : g.width ≤ g.screen := by unfold Cfg.width; omega

/-! ### The table of layouts -/

/-- What a match needs in its column. -/
def needs (g : Cfg) (l : List Item) : List (Nat × Nat) := l.map fun x =>
  if noJustify g l then (shown g x, described g x + g.pad) else (shown g x + described g x, g.pad)

def sumOf (cs : List (Nat × Nat)) : Nat := (cs.map fun p => p.1 + p.2).sum

/-- Columns `cs` are wide enough for the first `k` matches in `j + 1` columns. -/
structure Bound (g : Cfg) (ns : List (Nat × Nat)) (j k : Nat) (cs : List (Nat × Nat)) : Prop where
  len : cs.length = j + 1
  least : ∀ p ∈ cs, 1 ≤ p.1 ∧ g.pad ≤ p.2
  fits : ∀ (f : Nat) v p, f < k → ns[f]? = some v → cs[colIdx g.vertical ns.length j f]? = some p →
    v.1 ≤ p.1 ∧ v.2 ≤ p.2

theorem Bound.mono {g ns j k k' cs} (h : Bound g ns j k cs) (hk : k' ≤ k) : Bound g ns j k' cs :=
  ⟨h.len, h.least, fun f v p hf => h.fits f v p (by omega)⟩

theorem sumOf_set {cs : List (Nat × Nat)} {i : Nat} {p q : Nat × Nat} (h : cs[i]? = some p) :
    sumOf (cs.set i q) + (p.1 + p.2) = sumOf cs + (q.1 + q.2) := by
  induction cs generalizing i with
  | nil => cases h
  | cons c cs ih =>
    cases i with
    | zero => simp only [List.getElem?_cons_zero, Option.some.injEq] at h; subst h; simp [sumOf]; omega
    | succ i =>
      have := ih (i := i) (by simpa using h)
      simp only [sumOf, List.set_cons_succ, List.map_cons, List.sum_cons] at this ⊢; omega

theorem set_self {cs : List (Nat × Nat)} {i : Nat} {p : Nat × Nat} (h : cs[i]? = some p) : cs.set i p = cs := by
  apply List.ext_getElem?
  intro k
  rw [List.getElem?_set]
  by_cases hk : i = k
  · subst hk
    have : i < cs.length := by
      rcases Nat.lt_or_ge i cs.length with h' | h'
      · exact h'
      · rw [List.getElem?_eq_none h'] at h; cases h
    rw [if_pos rfl, if_pos this, h]
  · rw [if_neg hk]

theorem le_sumOf {cs : List (Nat × Nat)} {i : Nat} {p : Nat × Nat} (h : cs[i]? = some p) : p.1 + p.2 ≤ sumOf cs := by
  induction cs generalizing i with
  | nil => cases h
  | cons c cs ih =>
    cases i with
    | zero => simp only [List.getElem?_cons_zero, Option.some.injEq] at h; subst h; simp [sumOf]
    | succ i =>
      have := ih (i := i) (by simpa using h)
      simp only [sumOf, List.map_cons, List.sum_cons] at this ⊢; omega

theorem sumOf_le : ∀ {cs ds : List (Nat × Nat)}, cs.length = ds.length →
    (∀ (i : Nat) p q, cs[i]? = some p → ds[i]? = some q → p.1 ≤ q.1 ∧ p.2 ≤ q.2) → sumOf cs ≤ sumOf ds
  | [], [], _, _ => Nat.le_refl _
  | c :: cs, d :: ds, hl, h => by
    have h0 := h 0 c d rfl rfl
    have ih := sumOf_le (cs := cs) (ds := ds) (by simpa using hl) fun i p q h1 h2 => h (i + 1) p q (by simpa using h1) (by simpa using h2)
    simp only [sumOf, List.map_cons, List.sum_cons] at ih ⊢; omega

/-- The state of the entry of `j + 1` columns after `k` matches. -/
def Inv (g : Cfg) (ns : List (Nat × Nat)) (j k : Nat) (i : Info) : Prop :=
  if i.valid then
    Bound g ns j k i.cols ∧ i.line = sumOf i.cols ∧
      (i.line < g.lineLength ∨ i.line = (j + 1) * (1 + g.pad)) ∧ i.line ≤ g.lineLength ∧
      ∀ cs, Bound g ns j k cs → ∀ (c : Nat) p q, i.cols[c]? = some p → cs[c]? = some q → p.1 ≤ q.1 ∧ p.2 ≤ q.2
  else ∀ cs, Bound g ns j k cs → g.lineLength ≤ sumOf cs

theorem inv_update {g : Cfg} {ns : List (Nat × Nat)} {nrj : Bool} {j k m d : Nat} {i : Info}
    (hk : ns[k]? = some (if nrj then (m, d + g.pad) else (m + d, g.pad)))
    (hL : g.lineLength ≤ 32770) (hm : m ≤ 30000) (hd : d ≤ 1028)
    (h : Inv g ns j k i) : Inv g ns j (k + 1) (update g nrj ns.length k m d j i) := by
  have hkl : k < ns.length := by
    rcases Nat.lt_or_ge k ns.length with h | h
    · exact h
    · rw [List.getElem?_eq_none h] at hk; cases hk
  have hp := pad_cases g
  unfold update
  by_cases hv : i.valid
  · rw [if_pos hv]
    unfold Inv at h
    rw [if_pos hv] at h
    obtain ⟨hb, hline, hlt, hle, hmin⟩ := h
    have hidx := colIdx_lt (v := g.vertical) (j := j) hkl
    generalize hc : colIdx g.vertical ns.length j k = idx at *
    obtain ⟨arr, harr⟩ : ∃ arr, i.cols[idx]? = some arr :=
      ⟨_, List.getElem?_eq_getElem (by rw [hb.len]; exact hidx)⟩
    have hidl : idx < i.cols.length := by rw [hb.len]; exact hidx
    have hgd : i.cols.getD idx (0, 0) = arr := by simp [List.getD, harr]
    have hsum := le_sumOf harr
    -- the new entry
    generalize hva : (if nrj then m else m + d) = va
    generalize hvb : (if nrj then d + g.pad else g.pad) = vb
    have hk' : ns[k]? = some (va, vb) := by rw [hk, ← hva, ← hvb]; cases nrj <;> rfl
    have hva' : va ≤ 31028 := by rw [← hva]; split <;> omega
    have hvb' : vb ≤ 1032 := by rw [← hvb]; split <;> omega
    have key : ∀ i', i'.cols = i.cols.set idx (max arr.1 va, max arr.2 vb) → i'.line = sumOf i'.cols →
        i'.valid = (if arr.1 < va ∨ arr.2 < vb then decide (i'.line < g.lineLength) else true) →
        Inv g ns j (k + 1) i' := by
      intro i' h1 h2 h3
      have hset : ∀ (c : Nat) p, i'.cols[c]? = some p → 
          (c = idx ∧ p = (max arr.1 va, max arr.2 vb)) ∨ (c ≠ idx ∧ i.cols[c]? = some p) := by
        intro c p hcp
        rw [h1, List.getElem?_set] at hcp
        by_cases hci : idx = c
        · subst hci
          rw [if_pos rfl, if_pos hidl] at hcp
          exact .inl ⟨rfl, (Option.some.inj hcp).symm⟩
        · rw [if_neg hci] at hcp; exact .inr ⟨fun e => hci e.symm, hcp⟩
      have hmin' : ∀ cs, Bound g ns j (k + 1) cs → ∀ (c : Nat) p q, i'.cols[c]? = some p → cs[c]? = some q →
          p.1 ≤ q.1 ∧ p.2 ≤ q.2 := by
        intro cs hcs c p q hp' hq
        rcases hset c p hp' with ⟨e1, e2⟩ | ⟨_, e2⟩
        · subst e1; subst e2
          have a1 := hmin cs (hcs.mono (by omega)) c arr q harr hq
          have a2 := hcs.fits k (va, vb) q (by omega) hk' (by rw [hc]; exact hq)
          simp only at a2 ⊢; omega
        · exact hmin cs (hcs.mono (by omega)) c p q e2 hq
      have hlen' : i'.cols.length = j + 1 := by rw [h1, List.length_set, hb.len]
      unfold Inv
      by_cases hv' : i'.valid
      · rw [if_pos hv']
        rw [h3] at hv'
        have hb' : Bound g ns j (k + 1) i'.cols := by
          refine ⟨hlen', ?_, ?_⟩
          · intro p hp'
            obtain ⟨c, hc'⟩ := List.mem_iff_getElem?.1 hp'
            rcases hset c p hc' with ⟨_, e2⟩ | ⟨_, e2⟩
            · have := hb.least arr (List.mem_iff_getElem?.2 ⟨_, harr⟩)
              subst e2; simp only; omega
            · exact hb.least p (List.mem_iff_getElem?.2 ⟨_, e2⟩)
          · intro f v p hf hnf hcf
            rcases hset _ p hcf with ⟨e1, e2⟩ | ⟨e1, e2⟩
            · by_cases hfk : f = k
              · subst hfk; rw [hk'] at hnf; have := Option.some.inj hnf; subst this; subst e2; simp only; omega
              · have := hb.fits f v arr (by omega) hnf (by rw [e1]; exact harr)
                subst e2; simp only; omega
            · by_cases hfk : f = k
              · subst hfk; exact absurd hc e1
              · exact hb.fits f v p (by omega) hnf e2
        refine ⟨hb', h2, ?_, ?_, hmin'⟩
        · by_cases hch : arr.1 < va ∨ arr.2 < vb
          · rw [if_pos hch] at hv'; exact .inl (of_decide_eq_true hv')
          · have e : i'.cols = i.cols := by
              rw [h1, show max arr.1 va = arr.1 by omega, show max arr.2 vb = arr.2 by omega]
              exact set_self harr
            rw [h2, e, ← hline]; exact hlt
        · by_cases hch : arr.1 < va ∨ arr.2 < vb
          · rw [if_pos hch] at hv'; have := of_decide_eq_true hv'; omega
          · have e : i'.cols = i.cols := by
              rw [h1, show max arr.1 va = arr.1 by omega, show max arr.2 vb = arr.2 by omega]
              exact set_self harr
            rw [h2, e, ← hline]; exact hle
      · rw [if_neg hv']
        intro cs hcs
        have := sumOf_le (by rw [hlen', hcs.len]) (hmin' cs hcs)
        rw [h3] at hv'
        by_cases hch : arr.1 < va ∨ arr.2 < vb
        · rw [if_pos hch] at hv'
          have : ¬ i'.line < g.lineLength := fun h => hv' (decide_eq_true h)
          omega
        · rw [if_neg hch] at hv'; exact absurd rfl hv'
    simp only [hgd]
    generalize ha : (if nrj = true then max arr.1 m else w16 (m + d)) = a
    generalize hb2 : (if nrj = true then w16 (d + g.pad) else g.pad) = b
    have ha1 : arr.1 < a ↔ arr.1 < va := by
      rw [← ha, ← hva]; cases nrj
      · simp only [Bool.false_eq_true, if_false]; rw [w16_of (by omega)]
      · simp only [if_true]; omega
    have ha2 : arr.1 < a → a = va := by
      rw [← ha, ← hva]; cases nrj
      · simp only [Bool.false_eq_true, if_false]; intro; rw [w16_of (by omega)]
      · simp only [if_true]; omega
    have hb1 : b = vb := by
      rw [← hb2, ← hvb]; cases nrj
      · rfl
      · simp only [if_true]; rw [w16_of (by omega)]
    subst hb1
    have hline' : i.line + 32100 < 65536 := by omega
    by_cases c1 : arr.1 < a
    · have e1 := ha2 c1
      subst e1
      rw [if_pos c1]
      have hs1 := sumOf_set (q := (a, arr.2)) harr
      simp only at hs1
      by_cases c2 : arr.2 < b
      · rw [if_pos c2]
        have hget : (i.cols.set idx (a, arr.2)).getD idx (0, 0) = (a, arr.2) := by
          simp [List.getD, List.getElem?_set, hidl]
        have hs2 := sumOf_set (q := (a, b)) harr
        simp only at hs2
        apply key
        · simp only [hget, List.set_set]
          rw [show max arr.1 a = a by omega, show max arr.2 b = b by omega]
        · simp only [hget, List.set_set]
          rw [w16_of (show i.line + (a - arr.1) < 65536 by omega), w16_of (by omega)]
          omega
        · simp [c1]
      · rw [if_neg c2]
        apply key
        · simp only
          rw [show max arr.1 a = a by omega, show max arr.2 b = arr.2 by omega]
        · simp only
          rw [w16_of (by omega)]; omega
        · simp [c1]
    · rw [if_neg c1]
      have c1' : ¬ arr.1 < va := fun h => c1 (ha1.2 h)
      by_cases c2 : arr.2 < b
      · rw [if_pos c2]
        have hs2 := sumOf_set (q := (arr.1, b)) harr
        simp only at hs2
        apply key
        · simp only [hgd]
          rw [show max arr.1 va = arr.1 by omega, show max arr.2 b = b by omega]
        · simp only [hgd]
          rw [w16_of (by omega)]; omega
        · simp [c2]
      · rw [if_neg c2]
        apply key
        · rw [show max arr.1 va = arr.1 by omega, show max arr.2 b = arr.2 by omega, set_self harr]
        · exact hline
        · simp [c1', c2, hv]
  · rw [if_neg hv]
    unfold Inv at h ⊢
    rw [if_neg hv] at h ⊢
    intro cs hcs
    exact h cs (hcs.mono (by omega))

theorem validCount_le (l : List Info) : validCount l ≤ l.length := by
  induction l with
  | nil => simp [validCount]
  | cons i l ih => simp only [validCount, List.length_cons]; split <;> (try split) <;> omega

theorem validCount_after : ∀ (l : List Info) (j : Nat) (i : Info), validCount l ≤ j → l[j]? = some i → i.valid = false
  | [], j, i, _, h => by cases h
  | x :: l, j, i, hj, h => by
    simp only [validCount] at hj
    cases j with
    | zero =>
      simp only [List.getElem?_cons_zero, Option.some.injEq] at h
      subst h
      split at hj
      · omega
      · split at hj
        · omega
        · rename_i h2; simpa using h2
    | succ j =>
      refine validCount_after l j i ?_ (by simpa using h)
      split at hj
      · omega
      · rename_i h2; have h2 : validCount l = 0 := by omega
        omega

theorem validCount_last : ∀ (l : List Info), validCount l ≠ 0 → ∃ i, l[validCount l - 1]? = some i ∧ i.valid = true
  | [], h => absurd rfl h
  | x :: l, h => by
    simp only [validCount] at h ⊢
    by_cases h0 : validCount l ≠ 0
    · rw [if_pos h0]
      obtain ⟨i, h1, h2⟩ := validCount_last l h0
      refine ⟨i, ?_, h2⟩
      rw [show validCount l + 1 - 1 = validCount l - 1 + 1 by omega, List.getElem?_cons_succ]; exact h1
    · rw [if_neg h0] at h ⊢
      by_cases hv : x.valid = true
      · exact ⟨x, by rw [if_pos hv]; rfl, hv⟩
      · rw [if_neg hv] at h; exact absurd rfl h

/-- The table after `k` matches; it began with `M` entries. -/
structure LInv (g : Cfg) (ns : List (Nat × Nat)) (M k : Nat) (infos : List Info) : Prop where
  len : infos.length ≤ M
  here : ∀ (j : Nat) i, infos[j]? = some i → Inv g ns j k i
  gone : ∀ j, infos.length ≤ j → j < M → ∀ cs, Bound g ns j k cs → g.lineLength ≤ sumOf cs

theorem linv_step {g : Cfg} {ns : List (Nat × Nat)} {nrj : Bool} {M k m d : Nat} {infos : List Info}
    (hk : ns[k]? = some (if nrj then (m, d + g.pad) else (m + d, g.pad)))
    (hL : g.lineLength ≤ 32770) (hm : m ≤ 30000) (hd : d ≤ 1028)
    (h : LInv g ns M k infos) : LInv g ns M (k + 1) (stepInfos g nrj ns.length k m d infos) := by
  unfold stepInfos
  simp only
  generalize hi : infos.mapIdx (update g nrj ns.length k m d) = infos'
  have hlen : infos'.length = infos.length := by rw [← hi, List.length_mapIdx]
  have hget : ∀ (j : Nat) i', infos'[j]? = some i' → Inv g ns j (k + 1) i' := by
    intro j i' hj
    rw [← hi, List.getElem?_mapIdx, Option.map_eq_some_iff] at hj
    obtain ⟨i, h1, h2⟩ := hj
    subst h2
    exact inv_update hk hL hm hd (h.here j i h1)
  have hvl := validCount_le infos'
  refine ⟨?_, ?_, ?_⟩
  · rw [List.length_take]; have := h.len; omega
  · intro j i' hj
    rw [List.getElem?_take] at hj
    split at hj
    · exact hget j i' hj
    · cases hj
  · intro j hj hjM cs hcs
    rw [List.length_take, Nat.min_eq_left hvl] at hj
    rcases Nat.lt_or_ge j infos'.length with hlt | hge
    · obtain ⟨i', hi'⟩ : ∃ i', infos'[j]? = some i' := ⟨_, List.getElem?_eq_getElem hlt⟩
      have hinv := hget j i' hi'
      have := validCount_after infos' j i' hj hi'
      unfold Inv at hinv
      rw [this] at hinv
      exact hinv cs hcs
    · exact h.gone j (by omega) hjM cs (hcs.mono (by omega))

theorem sumOf_replicate (n : Nat) (p : Nat × Nat) : sumOf (List.replicate n p) = n * (p.1 + p.2) := by
  unfold sumOf; simp [List.map_replicate, List.sum_replicate_nat]

theorem linv_init {g : Cfg} {ns : List (Nat × Nat)} (hL : g.lineLength ≤ 32770) :
    LInv g ns (maxCols g ns.length) 0 (initInfos g (maxCols g ns.length)) := by
  have hlen : (initInfos g (maxCols g ns.length)).length = maxCols g ns.length := by simp [initInfos]
  have hpad := pad_cases g
  refine ⟨by omega, ?_, ?_⟩
  · intro j i hj
    unfold initInfos at hj
    rw [List.getElem?_map] at hj
    by_cases hjM : j < maxCols g ns.length
    · rw [List.getElem?_range hjM] at hj
      have hj := Option.some.inj hj
      subst hj
      have hidx : j + 1 ≤ g.lineLength / (1 + g.pad) := by
        unfold maxCols at hjM
        simp only at hjM
        split at hjM <;> omega
      have hmul : (j + 1) * (1 + g.pad) ≤ g.lineLength :=
        Nat.le_trans (Nat.mul_le_mul_right _ hidx) (Nat.div_mul_le_self ..)
      unfold Inv
      simp only [if_true]
      refine ⟨⟨by simp, ?_, ?_⟩, ?_, ?_, ?_, ?_⟩
      · intro p hp; rw [List.mem_replicate] at hp; rw [hp.2]; exact ⟨Nat.le_refl _, Nat.le_refl _⟩
      · intro f v p hf; omega
      · rw [sumOf_replicate, w16_of (by omega)]
      · rw [w16_of (by omega)]; exact .inr rfl
      · rw [w16_of (by omega)]; exact hmul
      · intro cs hcs c p q hp hq
        rw [List.getElem?_replicate] at hp
        split at hp
        · have := Option.some.inj hp; subst this
          exact hcs.least q (List.mem_iff_getElem?.2 ⟨_, hq⟩)
        · cases hp
    · rw [List.getElem?_eq_none (by simpa using hjM)] at hj; cases hj
  · intro j h1 h2; omega

theorem needs_length (g : Cfg) (l : List Item) : (needs g l).length = l.length := by simp [needs]

theorem linv_fit {g : Cfg} {l : List Item} (hs : Small g l) (hL : g.lineLength ≤ 32770) {M : Nat} :
    ∀ (rest : List Item) (k : Nat) (infos : List Info), l.drop k = rest → k ≤ l.length →
      LInv g (needs g l) M k infos →
      LInv g (needs g l) M l.length (fitFrom g (noJustify g l) l.length k rest infos) ∧
      (rest ≠ [] → fitFrom g (noJustify g l) l.length k rest infos ≠ [] →
        ∃ i, (fitFrom g (noJustify g l) l.length k rest infos)[(fitFrom g (noJustify g l) l.length k rest infos).length - 1]?
          = some i ∧ i.valid = true)
  | [], k, infos, hd, hkl, h => by
    have : l.length ≤ k := by simpa using hd
    have : k = l.length := by omega
    subst this
    exact ⟨h, fun h => absurd rfl h⟩
  | x :: rest, k, infos, hd, hkl, h => by
    have hlk : l[k]? = some x := by
      have : (l.drop k)[0]? = some x := by rw [hd]; rfl
      simpa using this
    have hx : x ∈ l := List.mem_iff_getElem?.2 ⟨_, hlk⟩
    have hlt : k < l.length := by
      rcases Nat.lt_or_ge k l.length with h | h
      · exact h
      · rw [List.getElem?_eq_none h] at hlk; cases hlk
    have hdr : l.drop (k + 1) = rest := by
      rw [← List.drop_drop, hd]; rfl
    have hm := matchLen_eq hs hx
    have hdl := descLen_eq g l x
    have hstep := linv_step (nrj := noJustify g l) (m := matchLen g x) (d := descLen g (noJustify g l) x)
      (by unfold needs; rw [List.getElem?_map, hlk, hm, hdl]; rfl) hL (by rw [hm]; exact shown_le hs hx)
      (by rw [hdl]; exact described_le g x) h
    rw [needs_length] at hstep
    have hstep' : LInv g (needs g l) M (k + 1)
        (stepInfos g (noJustify g l) l.length k (matchLen g x) (descLen g (noJustify g l) x) infos) := hstep
    have ih := linv_fit hs hL rest (k + 1) _ hdr (by omega) hstep'
    unfold fitFrom
    refine ⟨ih.1, fun _ hne => ?_⟩
    by_cases hr : rest = []
    · subst hr
      unfold fitFrom at hne ⊢
      unfold stepInfos at hne ⊢
      simp only at hne ⊢
      generalize infos.mapIdx (update g (noJustify g l) l.length k (matchLen g x) (descLen g (noJustify g l) x)) = infos'
        at hne ⊢
      have h0 : validCount infos' ≠ 0 := by intro h0; rw [h0] at hne; exact hne rfl
      obtain ⟨i, h1, h2⟩ := validCount_last infos' h0
      refine ⟨i, ?_, h2⟩
      rw [List.length_take, Nat.min_eq_left (validCount_le infos'), List.getElem?_take, if_pos (by omega)]
      exact h1
    · exact ih.2 hr hne

/-! ### The chosen layout -/

theorem lineLength_le {g : Cfg} {l : List Item} (hs : Small g l) : g.lineLength ≤ 32770 := by
  have := width_le g; have := hs.screen; have := pad_cases g
  unfold Cfg.lineLength; omega

theorem table_nil (g : Cfg) : table g [] = [] := by
  unfold table
  split
  · rfl
  · have : maxCols g 0 = 0 := by
      unfold maxCols; simp only; split
      · rfl
      · rename_i h; rw [Nat.eq_zero_of_not_pos h]; rfl
    simp [fitFrom, initInfos, this]

theorem table_inv {g : Cfg} {l : List Item} (hs : Small g l) (hf : fixedCols g l = false) :
    LInv g (needs g l) (maxCols g l.length) l.length (table g l) ∧
    (table g l ≠ [] → ∃ i, (table g l)[(table g l).length - 1]? = some i ∧ i.valid = true) := by
  have hL := lineLength_le hs
  have hi := linv_init (ns := needs g l) hL
  rw [needs_length] at hi
  have h := linv_fit hs hL (M := maxCols g l.length) l 0 _ rfl (by omega) hi
  have e : table g l = fitFrom g (noJustify g l) l.length 0 l (initInfos g (maxCols g l.length)) := by
    unfold table; rw [hf]; rfl
  rw [e]
  refine ⟨h.1, fun hne => h.2 ?_ hne⟩
  intro h0
  rw [h0] at e hne
  rw [table_nil] at e
  exact hne e.symm

theorem findLimit_last : ∀ (infos : List Info) (n : Nat) i, infos[n - 1]? = some i → i.valid = true →
    findLimit infos n = n
  | _, 0, _, _, _ => rfl
  | _, 1, _, _, _ => rfl
  | infos, n + 2, i, h, hv => by
    have h : infos[n + 1]? = some i := h
    unfold findLimit; simp [h, hv]

theorem var_iff (g : Cfg) (l : List Item) : varWidths g l = true ↔ fixedCols g l = false ∧ table g l ≠ [] := by
  unfold varWidths
  cases fixedCols g l <;> simp

structure VarFacts (g : Cfg) (l : List Item) (i : Info) : Prop where
  limit : limitOf g l = (table g l).length
  pos : 0 < limitOf g l
  bound : Bound g (needs g l) (limitOf g l - 1) l.length i.cols
  line : sumOf i.cols ≤ g.lineLength
  widths : firstWidths g l = i.cols.map fun p => p.1 + p.2 - g.pad
  matchLens : firstMatchLens g l = i.cols.map (·.1)

theorem range_getD {α β : Type} (cs : List α) (d : α) (f : α → β) :
    ((List.range cs.length).map fun i => f (cs.getD i d)) = cs.map f := by
  apply List.ext_getElem?
  intro k
  rw [List.getElem?_map, List.getElem?_map]
  by_cases h : k < cs.length
  · rw [List.getElem?_range h, List.getElem?_eq_getElem h]; simp [List.getD, List.getElem?_eq_getElem h]
  · rw [List.getElem?_eq_none (by simpa using h), List.getElem?_eq_none (by simpa using h)]; rfl

theorem var_facts {g : Cfg} {l : List Item} (hs : Small g l) (hv : varWidths g l = true) : ∃ i, VarFacts g l i := by
  obtain ⟨hf, hne⟩ := (var_iff g l).1 hv
  obtain ⟨hinv, hlast⟩ := table_inv hs hf
  obtain ⟨i, hi, hiv⟩ := hlast hne
  have hL := lineLength_le hs
  have hpos : 0 < (table g l).length := List.length_pos_iff.2 hne
  have hlim : limitOf g l = (table g l).length := by
    unfold limitOf; rw [hv]; exact findLimit_last _ _ i hi hiv
  have h := hinv.here _ _ hi
  unfold Inv at h
  rw [hiv] at h
  simp only [if_true] at h
  obtain ⟨hb, hl, _, hle, _⟩ := h
  have hcl : i.cols.length = limitOf g l := by rw [hb.len, hlim]; omega
  have harr : ∀ k, colArr g l k = i.cols.getD k (0, 0) := by
    intro k; unfold colArr; rw [hlim]; simp only [List.getD, hi, Option.getD_some]
  refine ⟨i, hlim, by omega, by rw [hlim]; exact hb, by omega, ?_, ?_⟩
  · unfold firstWidths
    rw [hv]
    simp only [Bool.not_true, Bool.false_eq_true, if_false, harr]
    rw [← hcl, range_getD i.cols (0, 0) fun p => sub16 (w16 (p.1 + p.2)) g.pad]
    apply List.map_congr_left
    intro p hp
    obtain ⟨k, hk⟩ := List.mem_iff_getElem?.1 hp
    have h1 := le_sumOf hk
    have h2 := hb.least p hp
    rw [w16_of (by omega), sub16_of (by omega) (by omega)]
  · unfold firstMatchLens
    rw [hv]
    simp only [Bool.not_true, Bool.false_eq_true, if_false, harr]
    rw [← hcl, range_getD i.cols (0, 0) fun p => p.1]

theorem sum_sub {pad : Nat} : ∀ {cs : List (Nat × Nat)}, (∀ p ∈ cs, 1 ≤ p.1 ∧ pad ≤ p.2) →
    (cs.map fun p => p.1 + p.2 - pad).sum + pad * cs.length = sumOf cs
  | [], _ => rfl
  | p :: cs, h => by
    have ih := sum_sub (pad := pad) (cs := cs) fun q hq => h q (List.mem_cons_of_mem _ hq)
    have := h p (List.mem_cons_self ..)
    simp only [sumOf, List.map_cons, List.sum_cons, List.length_cons, Nat.mul_succ] at ih ⊢; omega

/-- Folding a maximum. -/
theorem foldl_max {α : Type} (f : α → Nat) : ∀ (l : List α) (n : Nat),
    n ≤ l.foldl (fun n x => max n (f x)) n ∧ (∀ x ∈ l, f x ≤ l.foldl (fun n x => max n (f x)) n) ∧
    ∀ b, n ≤ b → (∀ x ∈ l, f x ≤ b) → l.foldl (fun n x => max n (f x)) n ≤ b
  | [], n => ⟨Nat.le_refl _, by simp, fun b h _ => h⟩
  | x :: l, n => by
    have ih := foldl_max f l (max n (f x))
    simp only [List.foldl_cons]
    refine ⟨by omega, ?_, ?_⟩
    · intro y hy
      rcases List.mem_cons.1 hy with e | e
      · subst e; omega
      · exact ih.2.1 y e
    · intro b h1 h2
      exact ih.2.2 b (by have := h2 x (List.mem_cons_self ..); omega) fun y hy => h2 y (List.mem_cons_of_mem _ hy)

section maxes
variable {g : Cfg} {l : List Item} (hs : Small g l)
include hs

theorem maxLen_le : maxLen g (noJustify g l) l ≤ 31028 :=
  (foldl_max _ l 0).2.2 _ (by omega) fun x hx => by
    rw [matchLen_eq hs hx, descLen_eq]; have := shown_le hs hx; have := described_le g x; omega

theorem le_maxLen {x : Item} (hx : x ∈ l) : shown g x + described g x ≤ maxLen g (noJustify g l) l := by
  have : matchLen g x + descLen g (noJustify g l) x ≤ maxLen g (noJustify g l) l :=
    (foldl_max (fun x => matchLen g x + descLen g (noJustify g l) x) l 0).2.1 x hx
  rwa [matchLen_eq hs hx, descLen_eq] at this

theorem maxMatch_le : maxMatch g l ≤ 30000 :=
  (foldl_max _ l 0).2.2 _ (by omega) fun x hx => by rw [matchLen_eq hs hx]; exact shown_le hs hx

theorem le_maxMatch {x : Item} (hx : x ∈ l) : shown g x ≤ maxMatch g l := by
  have := (foldl_max (fun x => matchLen g x) l 0).2.1 x hx
  simp only [matchLen_eq hs hx] at this; exact this

theorem maxDesc_le : maxDesc g (noJustify g l) l ≤ 1028 :=
  (foldl_max _ l 0).2.2 _ (by omega) fun x hx => by rw [descLen_eq]; exact described_le g x

theorem le_maxDesc {x : Item} (hx : x ∈ l) : described g x ≤ maxDesc g (noJustify g l) l := by
  have : descLen g (noJustify g l) x ≤ maxDesc g (noJustify g l) l :=
    (foldl_max (fun x => descLen g (noJustify g l) x) l 0).2.1 x hx
  rwa [descLen_eq] at this

end maxes

theorem firstWidths_length {g : Cfg} {l : List Item} : (firstWidths g l).length = limitOf g l := by
  unfold firstWidths; split <;> simp

theorem firstMatchLens_length {g : Cfg} {l : List Item} : (firstMatchLens g l).length = limitOf g l := by
  unfold firstMatchLens; split <;> simp

theorem widths_length (g : Cfg) (l : List Item) : (calculate g l).widths.length = limitOf g l := by
  unfold calculate; split
  · simp
  · exact firstWidths_length

theorem matchLens_length (g : Cfg) (l : List Item) : (calculate g l).matchLens.length = limitOf g l := by
  unfold calculate; split
  · simp
  · exact firstMatchLens_length

theorem limit_pos {g : Cfg} {l : List Item} (hs : Small g l) : 0 < limitOf g l := by
  by_cases hv : varWidths g l = true
  · obtain ⟨i, h⟩ := var_facts hs hv; exact h.pos
  · unfold limitOf
    have hv : varWidths g l = false := by simpa using hv
    rw [hv]
    simp only [Bool.not_false, if_true]
    split <;> omega

theorem first_total {g : Cfg} {l : List Item} (hs : Small g l) (hn : 1 < limitOf g l) :
    total (firstWidths g l) g.pad + 1 ≤ g.width := by
  have hp := pad_cases g
  unfold total
  rw [firstWidths_length]
  by_cases hv : varWidths g l = true
  · obtain ⟨i, h⟩ := var_facts hs hv
    have hsum := sum_sub h.bound.least
    rw [h.widths]
    have hl := h.bound.len
    rw [hl] at hsum
    have hline := h.line
    unfold Cfg.lineLength at hline
    rw [show limitOf g l - 1 + 1 = Nat.succ (limitOf g l - 1) by rfl, Nat.mul_succ] at hsum
    omega
  · have hv : varWidths g l = false := by simpa using hv
    have hM := maxLen_le hs
    unfold firstWidths
    have hlim : limitOf g l = if g.oneColumn then 1 else max (g.lineLength / (maxLen g (noJustify g l) l + g.pad)) 1 := by
      unfold limitOf; rw [hv]; rfl
    rw [hv]
    simp only [Bool.not_false, if_true, List.sum_replicate_nat]
    rw [w16_of (by omega)]
    split at hlim
    · omega
    · have e : limitOf g l = g.lineLength / (maxLen g (noJustify g l) l + g.pad) := by omega
      have h2 := Nat.div_mul_le_self g.lineLength (maxLen g (noJustify g l) l + g.pad)
      rw [← e, Nat.mul_add] at h2
      have h3 : limitOf g l * g.pad = g.pad * (limitOf g l - 1) + g.pad := by
        rw [Nat.mul_comm, ← Nat.mul_succ]; congr 1; omega
      unfold Cfg.lineLength at h2
      omega

theorem noJustify_false {g : Cfg} {l : List Item} : noJustify g l = false ↔ g.descs = true ∧ l.any (·.aligned) = false := by
  unfold noJustify; cases g.descs <;> simp

/-- If descriptions cannot be right justified after all there is a single column. -/
theorem reverted {g : Cfg} {l : List Item} (hs : Small g l) (h : noJustify g l = false) (hj : justifies g l = false) :
    limitOf g l = 1 := by
  have hpos := limit_pos hs
  rcases Nat.lt_or_ge 1 (limitOf g l) with hn | hn
  · have ht := first_total hs hn
    have hd := (noJustify_false.1 h).1
    have hpad : g.pad = 4 := by unfold Cfg.pad; rw [hd]; rfl
    unfold justifies at hj
    rw [h, firstWidths_length] at hj
    simp only [Bool.not_false, Bool.true_and, decide_eq_true (show limitOf g l > 1 from hn), Bool.true_or,
      Bool.or_eq_false_iff, decide_eq_false_iff_not] at hj
    unfold total at ht
    rw [firstWidths_length, hpad] at ht
    have : (firstWidths g l).headD 0 ≤ (firstWidths g l).sum := by
      cases firstWidths g l <;> simp
    omega
  · omega

theorem fits {g : Cfg} {l : List Item} (hs : Small g l) (hn : 1 < (calculate g l).widths.length) :
    total (calculate g l).widths (calculate g l).colPad + 1 ≤ g.width := by
  rw [widths_length] at hn
  unfold calculate
  split
  · rename_i h
    simp only [Bool.and_eq_true, Bool.not_eq_true'] at h
    have := reverted hs h.1 h.2
    omega
  · exact first_total hs hn

theorem at_limit {g : Cfg} {l : List Item} (hs : Small g l) {i c k : Nat}
    (h : At (rowsOf g.vertical l.length (limitOf g l)) i c k) :
    k < l.length ∧ c = colIdx g.vertical l.length (limitOf g l - 1) k := by
  have hpos := limit_pos hs
  have e : limitOf g l = limitOf g l - 1 + 1 := by omega
  rw [e] at h
  exact at_col h

/-- What a match needs is there in its column of variable width. -/
theorem var_room {g : Cfg} {l : List Item} (hs : Small g l) (hv : varWidths g l = true) {i c k : Nat} {x : Item}
    {m w : Nat} (hat : At (rowsOf g.vertical l.length (limitOf g l)) i c k) (hx : l[k]? = some x)
    (hm : (firstMatchLens g l)[c]? = some m) (hw : (firstWidths g l)[c]? = some w) :
    if noJustify g l then shown g x ≤ m ∧ m + described g x ≤ w
    else shown g x + described g x ≤ m ∧ m ≤ w := by
  obtain ⟨info, h⟩ := var_facts hs hv
  rw [h.matchLens, List.getElem?_map, Option.map_eq_some_iff] at hm
  obtain ⟨p, hp, rfl⟩ := hm
  rw [h.widths, List.getElem?_map, hp] at hw
  have hw : p.1 + p.2 - g.pad = w := Option.some.inj hw
  obtain ⟨hk, hc⟩ := at_limit hs hat
  have hl := h.bound.least p (List.mem_iff_getElem?.2 ⟨_, hp⟩)
  have hn : (needs g l)[k]? = some (if noJustify g l then (shown g x, described g x + g.pad)
      else (shown g x + described g x, g.pad)) := by unfold needs; rw [List.getElem?_map, hx]; rfl
  have hf := h.bound.fits k _ p hk hn (by rw [needs_length, ← hc]; exact hp)
  cases hnj : noJustify g l <;> rw [hnj] at hf <;> simp only [if_true, Bool.false_eq_true, if_false] at hf ⊢ <;> omega

theorem fixed_widths {g : Cfg} {l : List Item} (hs : Small g l) (hv : varWidths g l = false) {c m w : Nat}
    (hm : (firstMatchLens g l)[c]? = some m) (hw : (firstWidths g l)[c]? = some w) :
    m = maxMatch g l ∧ w = maxLen g (noJustify g l) l := by
  have h1 := maxMatch_le hs
  have h2 := maxLen_le hs
  unfold firstMatchLens at hm
  unfold firstWidths at hw
  rw [hv] at hm hw
  simp only [Bool.not_false, if_true, List.getElem?_replicate] at hm hw
  split at hm
  · rename_i hc
    rw [if_pos hc] at hw
    have := Option.some.inj hm
    have := Option.some.inj hw
    rw [w16_of (by omega)] at *
    omega
  · cases hm

theorem room {g : Cfg} {l : List Item} (hs : Small g l) {i c k : Nat} {x : Item} {m w : Nat}
    (hat : At (rowsOf g.vertical l.length (calculate g l).widths.length) i c k) (hx : l[k]? = some x)
    (hm : (calculate g l).matchLens[c]? = some m) (hw : (calculate g l).widths[c]? = some w) :
    shown g x ≤ m ∧ shown g x + described g x ≤ w := by
  have hxl : x ∈ l := List.mem_iff_getElem?.2 ⟨_, hx⟩
  rw [widths_length] at hat
  have h1 := maxMatch_le hs
  have h2 := maxLen_le hs
  have h3 := maxDesc_le hs
  have h4 := le_maxMatch hs hxl
  have h5 := le_maxLen hs hxl
  have h6 := le_maxDesc hs hxl
  unfold calculate at hm hw
  split at hm
  · rename_i hif
    rw [if_pos hif] at hw
    simp only [List.getElem?_replicate] at hm hw
    split at hm
    · rename_i hc
      rw [if_pos hc] at hw
      have := Option.some.inj hm
      have := Option.some.inj hw
      rw [w16_of (by omega)] at *
      omega
    · cases hm
  · rename_i hif
    rw [if_neg hif] at hw
    by_cases hv : varWidths g l = true
    · have := var_room hs hv hat hx hm hw
      cases hnj : noJustify g l <;> rw [hnj] at this <;> simp only [if_true, Bool.false_eq_true, if_false] at this <;> omega
    · have := fixed_widths hs (by simpa using hv) hm hw
      omega

/-- Without layouts that fit there is a single column. -/
theorem single {g : Cfg} {l : List Item} (hs : Small g l) (hf : fixedCols g l = false) (hv : varWidths g l = false)
    (hl : l ≠ []) : limitOf g l = 1 := by
  have ht : table g l = [] := by
    cases h : table g l with
    | nil => rfl
    | cons a t =>
      have : varWidths g l = true := (var_iff g l).2 ⟨hf, by rw [h]; simp⟩
      rw [hv] at this; cases this
  have hL := lineLength_le hs
  have hlim : limitOf g l = if g.oneColumn then 1 else max (g.lineLength / (maxLen g (noJustify g l) l + g.pad)) 1 := by
    unfold limitOf; rw [hv]; rfl
  have hone : g.oneColumn = false := by unfold fixedCols at hf; simp at hf; exact hf.2
  rw [hone] at hlim
  simp only [Bool.false_eq_true, if_false] at hlim
  have hp := pad_cases g
  have h2 : g.lineLength / (maxLen g (noJustify g l) l + g.pad) ≤ 1 := by
    apply Nat.le_of_lt_succ
    rw [Nat.div_lt_iff_lt_mul (by omega)]
    rcases Nat.eq_zero_or_pos (maxCols g l.length) with h0 | h0
    · unfold maxCols at h0
      simp only at h0
      have hlp : 0 < l.length := List.length_pos_iff.2 hl
      have : g.lineLength / (1 + g.pad) = 0 := by
        generalize g.lineLength / (1 + g.pad) = q at *
        split at h0 <;> omega
      have := (Nat.div_eq_zero_iff_lt (by omega)).1 this
      omega
    · -- the layout of a single column does not fit
      obtain ⟨x, hx⟩ := List.exists_mem_of_ne_nil l hl
      have hx' := le_maxLen hs hx
      have h1 := (table_inv hs hf).1.gone 0 (by rw [ht]; simp) h0
        [if noJustify g l then (max 1 (maxMatch g l), maxDesc g (noJustify g l) l + g.pad)
          else (max 1 (maxLen g (noJustify g l) l), g.pad)] ⟨rfl, ?_, ?_⟩
      · have hmm : maxMatch g l ≤ maxLen g (noJustify g l) l := by
          refine (foldl_max _ l 0).2.2 _ (by omega) fun y hy => ?_
          rw [matchLen_eq hs hy]; have := le_maxLen hs hy; omega
        have hmd : maxDesc g (noJustify g l) l ≤ maxLen g (noJustify g l) l := by
          refine (foldl_max _ l 0).2.2 _ (by omega) fun y hy => ?_
          rw [descLen_eq]; have := le_maxLen hs hy; omega
        cases hnj : noJustify g l <;> rw [hnj] at h1 hmm hmd <;> simp [sumOf] at h1 ⊢ <;> omega
      · intro p hp'
        simp only [List.mem_singleton] at hp'
        subst hp'
        split <;> simp only <;> omega
      · intro f v p _ hfv hp'
        have hmem : v ∈ needs g l := List.mem_iff_getElem?.2 ⟨_, hfv⟩
        have : p = if noJustify g l then (max 1 (maxMatch g l), maxDesc g (noJustify g l) l + g.pad)
          else (max 1 (maxLen g (noJustify g l) l), g.pad) := by
          have := List.mem_iff_getElem?.2 ⟨_, hp'⟩
          simpa using this
        unfold needs at hmem
        obtain ⟨y, hy, rfl⟩ := List.mem_map.1 hmem
        have a1 := le_maxMatch hs hy
        have a2 := le_maxLen hs hy
        have a3 := le_maxDesc hs hy
        subst this
        cases hnj : noJustify g l <;> rw [hnj] at a2 a3 <;> simp only [if_true, Bool.false_eq_true, if_false] <;> omega
  omega

theorem begins {g : Cfg} {l : List Item} (hs : Small g l) (hf : fixedCols g l = false)
    (hn : 1 < (calculate g l).widths.length ∨ (g.descs = true ∧ l.any (·.aligned) = false))
    (hr : (calculate g l).rightJustify = false)
    {i c k : Nat} {x : Item} {m w : Nat}
    (hat : At (rowsOf g.vertical l.length (calculate g l).widths.length) i c k) (hx : l[k]? = some x)
    (hm : (calculate g l).matchLens[c]? = some m) (hw : (calculate g l).widths[c]? = some w) :
    m + described g x ≤ w := by
  have hxl : x ∈ l := List.mem_iff_getElem?.2 ⟨_, hx⟩
  rw [widths_length] at hat hn
  have h1 := maxMatch_le hs
  have h3 := maxDesc_le hs
  have h6 := le_maxDesc hs hxl
  unfold calculate at hm hw hr
  split at hm
  · rename_i hif
    rw [if_pos hif] at hw
    simp only [List.getElem?_replicate] at hm hw
    split at hm
    · rename_i hc
      rw [if_pos hc] at hw
      have := Option.some.inj hm
      have := Option.some.inj hw
      rw [w16_of (by omega)] at *
      omega
    · cases hm
  · rename_i hif
    rw [if_neg hif] at hw hr
    simp only at hr
    rw [hr] at hif
    simp only [Bool.not_false, Bool.and_true, Bool.not_eq_true', Bool.not_eq_false] at hif
    by_cases hv : varWidths g l = true
    · have := var_room hs hv hat hx hm hw
      rw [hif] at this
      simp only [if_true] at this
      exact this.2
    · have hv : varWidths g l = false := by simpa using hv
      have := single hs hf hv (List.ne_nil_of_mem hxl)
      rcases hn with hn | hn
      · omega
      · have := noJustify_false.2 hn; rw [this] at hif; cases hif

/-- Columns of a wider layout would not fit. -/
theorem most {g : Cfg} {l : List Item} (hs : Small g l) (hf : fixedCols g l = false) {ms ws : List Nat}
    (hr : Room g l ms ws) (hn : (calculate g l).widths.length < ws.length) (h50 : ws.length ≤ 50)
    (hc : ws.length ≤ l.length) : g.width ≤ total ws g.pad + 1 := by
  rw [widths_length] at hn
  have hp := pad_cases g
  have hpos := limit_pos hs
  have hinv := (table_inv hs hf).1
  have htl : (table g l).length ≤ ws.length - 1 := by
    by_cases hv : varWidths g l = true
    · obtain ⟨i, h⟩ := var_facts hs hv
      have := h.limit; omega
    · have : table g l = [] := by
        cases h : table g l with
        | nil => rfl
        | cons a t => exact absurd ((var_iff g l).2 ⟨hf, by rw [h]; simp⟩) hv
      rw [this]; simp
  have hone : ∀ w ∈ ws, 1 ≤ w := by
    intro w hw
    obtain ⟨c, hc⟩ := List.mem_iff_getElem?.1 hw
    have hcl : c < ws.length := by
      rcases Nat.lt_or_ge c ws.length with h | h
      · exact h
      · rw [List.getElem?_eq_none h] at hc; cases hc
    have := hr.order c _ w (List.getElem?_eq_getElem (by rw [hr.length]; exact hcl)) hc
    omega
  have hsumge : ∀ (ws : List Nat), (∀ w ∈ ws, 1 ≤ w) → ws.length ≤ ws.sum := by
    intro ws
    induction ws with
    | nil => intro _; simp
    | cons w ws ih =>
      intro h
      have := ih fun v hv => h v (List.mem_cons_of_mem _ hv)
      have := h w (List.mem_cons_self ..)
      simp only [List.length_cons, List.sum_cons]; omega
  have hmul : g.pad * ws.length = g.pad * (ws.length - 1) + g.pad := by rw [← Nat.mul_succ]; congr 1; omega
  suffices h : g.lineLength ≤ ws.sum + g.pad * ws.length by
    unfold total; unfold Cfg.lineLength at h; omega
  rcases Nat.lt_or_ge (ws.length - 1) (maxCols g l.length) with hM | hM
  · let cs : List (Nat × Nat) := (List.range ws.length).map fun c =>
      if noJustify g l then (ms.getD c 0, ws.getD c 0 - ms.getD c 0 + g.pad) else (ws.getD c 0, g.pad)
    have hget : ∀ (c : Nat) p, cs[c]? = some p → ∃ m w, ms[c]? = some m ∧ ws[c]? = some w ∧
        p = if noJustify g l then (m, w - m + g.pad) else (w, g.pad) := by
      intro c p hcp
      have hcl : c < ws.length := by
        rcases Nat.lt_or_ge c ws.length with h | h
        · exact h
        · rw [List.getElem?_eq_none (by simpa [cs] using h)] at hcp; cases hcp
      have h1 : ms[c]? = some (ms[c]'(by rw [hr.length]; exact hcl)) := List.getElem?_eq_getElem _
      have h2 : ws[c]? = some (ws[c]) := List.getElem?_eq_getElem _
      refine ⟨_, _, h1, h2, ?_⟩
      simp only [cs, List.getElem?_map, List.getElem?_range hcl, Option.map_some, List.getD, h1, h2, Option.getD_some,
        Option.some.injEq] at hcp
      exact hcp.symm
    have hb : Bound g (needs g l) (ws.length - 1) l.length cs := by
      refine ⟨by simp [cs]; omega, ?_, ?_⟩
      · intro p hp'
        obtain ⟨c, hc'⟩ := List.mem_iff_getElem?.1 hp'
        obtain ⟨m, w, h1, h2, e⟩ := hget c p hc'
        have := hr.order c m w h1 h2
        subst e; split <;> simp only <;> omega
      · intro f v p hf' hv hcp
        rw [needs_length] at hcp
        obtain ⟨m, w, h1, h2, e⟩ := hget _ p hcp
        unfold needs at hv
        rw [List.getElem?_map, Option.map_eq_some_iff] at hv
        obtain ⟨x, hx, rfl⟩ := hv
        obtain ⟨i, hat⟩ := col_at (v := g.vertical) (j := ws.length - 1) hf'
        rw [show ws.length - 1 + 1 = ws.length by omega] at hat
        have := hr.room i _ f x m w hat hx h1 h2
        have ho := hr.order _ m w h1 h2
        subst e
        cases hnj : noJustify g l with
        | false =>
          rw [if_pos (noJustify_false.1 hnj)] at this
          simp only [Bool.false_eq_true, if_false]; omega
        | true =>
          rw [if_neg (fun h => by rw [noJustify_false.2 h] at hnj; cases hnj)] at this
          simp only [if_true]; omega
    have h1 := hinv.gone (ws.length - 1) htl hM cs hb
    have hsum : ∀ (ms ws : List Nat), ms.length = ws.length →
        (∀ (c m w : Nat), ms[c]? = some m → ws[c]? = some w → 1 ≤ m ∧ m ≤ w) →
        sumOf ((List.range ws.length).map fun c =>
          if noJustify g l then (ms.getD c 0, ws.getD c 0 - ms.getD c 0 + g.pad) else (ws.getD c 0, g.pad)) =
          ws.sum + g.pad * ws.length := by
      intro ms ws
      induction ws generalizing ms with
      | nil => intro _ _; rfl
      | cons w ws ih =>
        intro hl ho
        cases ms with
        | nil => simp at hl
        | cons m ms =>
          have := ih ms (by simpa using hl) fun c m w h1 h2 => ho (c + 1) m w (by simpa using h1) (by simpa using h2)
          have h0 := ho 0 m w rfl rfl
          unfold sumOf at this ⊢
          rw [List.length_cons, List.range_succ_eq_map]
          simp only [List.map_cons, List.map_map, List.sum_cons, List.getD_cons_zero, Nat.mul_succ] at this ⊢
          have e : ((fun p : Nat × Nat => p.1 + p.2) ∘ (fun c => if noJustify g l = true then
              ((m :: ms).getD c 0, (w :: ws).getD c 0 - (m :: ms).getD c 0 + g.pad) else ((w :: ws).getD c 0, g.pad)) ∘ Nat.succ)
              = (fun p : Nat × Nat => p.1 + p.2) ∘ fun c => if noJustify g l = true then
              (ms.getD c 0, ws.getD c 0 - ms.getD c 0 + g.pad) else (ws.getD c 0, g.pad) := by
            funext c; simp [List.getD]
          rw [e, this]
          split <;> simp only <;> omega
    rw [← hsum ms ws hr.length hr.order]; exact h1
  · have := hsumge ws hone
    have hq : g.lineLength / (1 + g.pad) < ws.length := by
      unfold maxCols at hM
      simp only at hM
      generalize g.lineLength / (1 + g.pad) = q at *
      split at hM <;> omega
    rw [Nat.div_lt_iff_lt_mul (by omega), Nat.mul_add, Nat.mul_one, Nat.mul_comm ws.length g.pad] at hq
    omega

/-! ### Printing -/

theorem spaces_ge (a b : Nat) : b ≤ a + spaces a b := by unfold spaces; split <;> omega

theorem spaces_of {a b : Nat} (h : a < b) : a + spaces a b = b := by unfold spaces; rw [if_neg (by omega)]; omega

theorem calculate_pad (g : Cfg) (l : List Item) : (calculate g l).colPad = g.pad := by unfold calculate; split <;> rfl

/-- Descriptions are right justified. -/
theorem justified {g : Cfg} {l : List Item} (h : (calculate g l).rightJustify = true) :
    g.descs = true ∧ (calculate g l).descPad = 2 ∧ justifies g l = true := by
  unfold calculate at h
  split at h
  · cases h
  · rename_i hif
    simp only at h
    have hnj : noJustify g l = false := by unfold justifies at h; simp at h; exact h.1.1
    have hd := (noJustify_false.1 hnj).1
    refine ⟨hd, ?_, h⟩
    unfold calculate
    rw [if_neg hif]
    simp only [descPad, hd, hnj]; rfl

theorem justified_widths {g : Cfg} {l : List Item} (h : (calculate g l).rightJustify = true) :
    (calculate g l).widths = firstWidths g l := by
  unfold calculate at h ⊢
  split at h
  · cases h
  · rename_i hif; rw [if_neg hif]

theorem cell_printed (ell : Nat → Int → Nat) (g : Cfg) (w : Widths) (j i s : Nat) (x : Item) :
    s + (cellOf ell g w j i s x).printed ≤ (cellOf ell g w j i s x).stop ∧
    (cellOf ell g w j i s x).item = i ∧ (cellOf ell g w j i s x).start = s ∧
    (cellOf ell g w j i s x).matchEnd = s + matchLen g x := by
  unfold cellOf Cell.stop
  simp only
  by_cases h : showsDesc g w j x = true
  · rw [if_pos h]
    have := spaces_ge (matchLen g x) (padTo g w j x)
    refine ⟨?_, rfl, rfl, rfl⟩
    simp only; omega
  · rw [if_neg h]; exact ⟨Nat.le_refl _, rfl, rfl, rfl⟩

/-- A cell that has room for its match and description. -/
theorem cell_ok {ell : Nat → Int → Nat} {l : List Item} (hell : Ellipsifies ell l) {g : Cfg} {w : Widths} {j i s wd : Nat} {x : Item}
    (hx : l[i]? = some x)
    (hom : g.omitDesc = false) (hd : g.hasDesc = false ∨ w.rightJustify = true) (hdp : w.rightJustify = true → w.descPad = 2)
    (hw : w.widths[j]? = some wd) (hm : matchLen g x = shown g x) (hr : shown g x + described g x ≤ wd) :
    (cellOf ell g w j i s x).stop = s + (cellOf ell g w j i s x).printed ∧
    (cellOf ell g w j i s x).printed ≤ wd ∧
    (w.rightJustify = true → x.desc ≠ 0 → x.desc ≤ 1024 → g.hasDesc = true → wd + 1 ≤ g.screen →
      (cellOf ell g w j i s x).desc = some (s + wd - (x.desc + 2), s + wd) ∧
      (cellOf ell g w j i s x).matchEnd + 2 ≤ s + wd - (x.desc + 2)) := by
  have hcm : colMax g w j = wd := by
    unfold colMax
    have : (g.hasDesc && !w.rightJustify) = false := by
      rcases hd with h | h <;> rw [h] <;> simp
    rw [this]; simp [List.getD, hw]
  have hds : g.descs = g.hasDesc := by unfold Cfg.descs; rw [hom]; simp
  unfold cellOf Cell.stop
  simp only
  by_cases h : showsDesc g w j x = true
  · rw [if_pos h]
    unfold showsDesc at h
    simp only [Bool.and_eq_true, bne_iff_ne, ne_eq, decide_eq_true_eq] at h
    obtain ⟨⟨h1, h2⟩, h3⟩ := h
    have hrj : w.rightJustify = true := by
      rcases hd with h | h
      · rw [h] at h1; cases h1
      · exact h
    have hpar : w.par = 2 := by unfold Widths.par; rw [hrj]; rfl
    have hde : described g x = min 1024 x.desc + 4 := by
      unfold described; rw [hds]; exact if_pos ⟨h1, h2⟩
    have hpt : padTo g w j x = max (matchLen g x + 2) (wd - (x.desc + 2)) := by
      unfold padTo; rw [hrj, hcm, hpar, hdp hrj]; rfl
    rw [hcm, hpar, hpt]
    have hsp := spaces_of (show matchLen g x < max (matchLen g x + 2) (wd - (x.desc + 2)) by omega)
    generalize hT : max (matchLen g x + 2) (wd - (x.desc + 2)) = T at *
    have hTle : T + 3 ≤ wd := by omega
    refine ⟨by simp only; omega, ?_, ?_⟩
    · simp only
      have h5 := hell.limit i ((wd : Int) - (T + 2 : Nat)) (by omega)
      omega
    · intro _ _ h6 _ _
      have hTe : T = wd - (x.desc + 2) := by omega
      have := hell.keep i x ((wd : Int) - (T + 2 : Nat)) hx (by omega)
      rw [this]
      refine ⟨?_, by simp only; omega⟩
      simp only [Option.some.injEq, Prod.mk.injEq]
      omega
  · rw [if_neg h]
    refine ⟨rfl, by simp only; omega, ?_⟩
    intro hrj h2 h6 h1 hscr
    exfalso; apply h
    have hpar : w.par = 2 := by unfold Widths.par; rw [hrj]; rfl
    have hde : described g x = min 1024 x.desc + 4 := by
      unfold described; rw [hds]; exact if_pos ⟨h1, h2⟩
    have hpt : padTo g w j x = max (matchLen g x + 2) (wd - (x.desc + 2)) := by
      unfold padTo; rw [hrj, hcm, hpar, hdp hrj]; rfl
    unfold showsDesc
    simp only [Bool.and_eq_true, bne_iff_ne, ne_eq, decide_eq_true_eq]
    refine ⟨⟨h1, h2⟩, ?_⟩
    omega

theorem startOf_succ {ws : List Nat} {pad c w : Nat} (h : ws[c]? = some w) :
    startOf ws pad (c + 1) = startOf ws pad c + w + pad := by
  unfold startOf
  rw [List.take_succ, h]
  simp only [Option.toList_some, List.sum_append, List.sum_cons, List.sum_nil, Nat.mul_succ]; omega

theorem startOf_total : ∀ {ws : List Nat} {pad c w : Nat}, ws[c]? = some w → startOf ws pad c + w ≤ total ws pad := by
  intro ws pad c w h
  have hc : c < ws.length := by
    rcases Nat.lt_or_ge c ws.length with h' | h'
    · exact h'
    · rw [List.getElem?_eq_none h'] at h; cases h
  have h1 := startOf_succ (pad := pad) h
  have h2 : (ws.take (c + 1)).sum ≤ ws.sum := by
    conv => rhs; rw [← List.take_append_drop (c + 1) ws]
    rw [List.sum_append]; omega
  have h3 : pad * (c + 1) ≤ pad * ws.length := Nat.mul_le_mul_left _ (by omega)
  have h4 : pad * ws.length = pad * (ws.length - 1) + pad := by rw [← Nat.mul_succ]; congr 1; omega
  unfold startOf at h1 ⊢
  unfold total
  omega

theorem printFrom_get (ell : Nat → Int → Nat) (g : Cfg) (w : Widths) (items : List Item) :
    ∀ (ids : List Nat) (j s t : Nat) c, (printFrom ell g w items j s ids)[t]? = some c → ids[t]? = some c.item
  | [], _, _, _, _, h => by cases h
  | i :: ids, j, s, 0, c, h => by
    simp only [printFrom, List.getElem?_cons_zero, Option.some.injEq] at h
    subst h
    rw [(cell_printed ..).2.1]; rfl
  | i :: ids, j, s, t + 1, c, h => by
    simp only [printFrom, List.getElem?_cons_succ] at h ⊢
    exact printFrom_get ell g w items ids _ _ t c h

/-- A row of cells that have room. -/
theorem printFrom_ok {ell : Nat → Int → Nat} {items : List Item} (hell : Ellipsifies ell items) {g : Cfg} {w : Widths}
    (hom : g.omitDesc = false) (hd : g.hasDesc = false ∨ w.rightJustify = true)
    (hdp : w.rightJustify = true → w.descPad = 2) (hp : 0 < w.colPad) :
    ∀ (ids : List Nat) (j : Nat),
      (∀ (t i : Nat), ids[t]? = some i → ∃ x wd, items[i]? = some x ∧ w.widths[j + t]? = some wd ∧
        matchLen g x = shown g x ∧ shown g x + described g x ≤ wd) →
      ∀ (t : Nat) c, (printFrom ell g w items j (startOf w.widths w.colPad j) ids)[t]? = some c →
        ∃ x wd, items[c.item]? = some x ∧ w.widths[j + t]? = some wd ∧
          c = cellOf ell g w (j + t) c.item (startOf w.widths w.colPad (j + t)) x
  | [], _, _, _, _, h => by cases h
  | i :: ids, j, hids, t, c, h => by
    obtain ⟨x, wd, h1, h2, h3, h4⟩ := hids 0 i rfl
    have h2 : w.widths[j]? = some wd := h2
    have hgx : items.getD i ⟨0, 0, false, false, true, 0, false⟩ = x := by simp [List.getD, h1]
    simp only [printFrom, hgx] at h
    cases t with
    | zero =>
      simp only [List.getElem?_cons_zero, Option.some.injEq] at h
      have hit : c.item = i := by rw [← h]; exact (cell_printed ..).2.1
      exact ⟨x, wd, by rw [hit]; exact h1, h2, by rw [hit]; exact h.symm⟩
    | succ t =>
      simp only [List.getElem?_cons_succ] at h
      have hok := cell_ok hell (i := i) (s := startOf w.widths w.colPad j) h1 hom hd hdp h2 h3 h4
      have hcm : colMax g w j = wd := by
        unfold colMax
        have : (g.hasDesc && !w.rightJustify) = false := by
          rcases hd with h | h <;> rw [h] <;> simp
        rw [this]
        simp [List.getD, h2]
      have hnext : (cellOf ell g w j i (startOf w.widths w.colPad j) x).stop +
          spaces (cellOf ell g w j i (startOf w.widths w.colPad j) x).printed (colMax g w j + w.colPad) =
          startOf w.widths w.colPad (j + 1) := by
        rw [startOf_succ h2, hok.1, hcm]
        have := spaces_of (show (cellOf ell g w j i (startOf w.widths w.colPad j) x).printed < wd + w.colPad by
          have := hok.2.1; omega)
        omega
      rw [hnext] at h
      have ih := printFrom_ok hell (g := g) (w := w) (items := items) hom hd hdp hp ids (j + 1) (fun t' i' hi' => by
        have := hids (t' + 1) i' (by simpa using hi')
        rw [show j + (t' + 1) = j + 1 + t' by omega] at this; exact this) t c h
      rw [show j + (t + 1) = j + 1 + t by omega]
      exact ih

/-- Descriptions that are not right justified: cells begin after the screen. -/
theorem printFrom_wrap (ell : Nat → Int → Nat) {g : Cfg} {w : Widths} (items : List Item)
    (hd : g.hasDesc = true) (hr : w.rightJustify = false) :
    ∀ (ids : List Nat) (j s t : Nat) c, (printFrom ell g w items j s ids)[t]? = some c →
      s + t * (g.screen - 1 + w.colPad) ≤ c.start
  | [], _, _, _, _, h => by cases h
  | i :: ids, j, s, 0, c, h => by
    simp only [printFrom, List.getElem?_cons_zero, Option.some.injEq] at h
    rw [← h, (cell_printed ..).2.2.1]; omega
  | i :: ids, j, s, t + 1, c, h => by
    simp only [printFrom, List.getElem?_cons_succ] at h
    have ih := printFrom_wrap ell items hd hr ids _ _ t c h
    generalize hx : items.getD i ⟨0, 0, false, false, true, 0, false⟩ = x at ih
    have h1 := (cell_printed ell g w j i s x).1
    have h2 := spaces_ge (cellOf ell g w j i s x).printed (colMax g w j + w.colPad)
    have h3 : colMax g w j = g.screen - 1 := by unfold colMax; rw [hd, hr]; rfl
    rw [h3] at h2 ih
    rw [Nat.succ_mul]
    omega

end Clink.Columns
