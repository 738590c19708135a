import Verif.Proof.TermReqKept
import Verif.Proof.TermReqFind

/-!
With an answer: it is found, and its records are the ones that are taken out.
-/

namespace Clink.TermReq
open Spec Clink.TermIn Clink.TermIn.Spec
open Clink.Utf (IsText)
open Clink.Doskey.Spec (flat)

/-- The bytes of records. -/
def bytes (L : List (Record × List Nat)) : List Nat := (L.map (·.2)).flatten

theorem bytes_append (a b : List (Record × List Nat)) : bytes (a ++ b) = bytes a ++ bytes b := by simp [bytes]
theorem bytes_cons (x : Record × List Nat) (b : List (Record × List Nat)) : bytes (x :: b) = x.2 ++ bytes b := by simp [bytes]

/-- Some records that give nothing are not there. -/
inductive Thin : List (Record × List Nat) → List (Record × List Nat) → Prop
  | nil : Thin [] []
  | keep {x a b} (h : Thin a b) : Thin (x :: a) (x :: b)
  | skip {x a b} (hx : x.2 = []) (h : Thin a b) : Thin a (x :: b)

theorem thin_append {a b c d : List (Record × List Nat)} (h : Thin a b) (k : Thin c d) : Thin (a ++ c) (b ++ d) := by
  induction h with
  | nil => exact k
  | keep _ ih => exact .keep ih
  | skip hx _ ih => exact .skip hx ih

theorem thin_drop {d : List (Record × List Nat)} (h : ∀ x ∈ d, x.2 = []) : Thin [] d := by
  induction d with
  | nil => exact .nil
  | cons x d ih => exact .skip (h x (by simp)) (ih fun y hy => h y (by simp [hy]))

theorem thin_bytes {a b : List (Record × List Nat)} (h : Thin a b) : bytes a = bytes b := by
  induction h with
  | nil => rfl
  | keep _ ih => rw [bytes_cons, bytes_cons, ih]
  | skip hx _ ih => rw [bytes_cons, hx, List.nil_append, ih]

theorem thin_mem {a b : List (Record × List Nat)} (h : Thin a b) : ∀ x ∈ a, x ∈ b := by
  induction h with
  | nil => exact fun x h => h
  | keep _ ih =>
    intro y hy
    rcases List.mem_cons.1 hy with rfl | hy
    · simp
    · exact List.mem_cons_of_mem _ (ih y hy)
  | skip hx _ ih => exact fun y hy => List.mem_cons_of_mem _ (ih y hy)

theorem thin_length {a b : List (Record × List Nat)} (h : Thin a b) : a.length ≤ b.length := by
  induction h with
  | nil => exact Nat.le_refl _
  | keep _ ih => exact Nat.succ_le_succ ih
  | skip hx _ ih => exact Nat.le_succ_of_le ih

theorem thin_split {m a b : List (Record × List Nat)} {x : Record × List Nat} (h : Thin m (a ++ x :: b)) (hx : x.2 ≠ []) :
    ∃ m1 m2, m = m1 ++ x :: m2 ∧ Thin m1 a ∧ Thin m2 b := by
  induction a generalizing m with
  | nil =>
    cases h with
    | keep h => exact ⟨[], _, rfl, .nil, h⟩
    | skip h0 _ => exact absurd h0 hx
  | cons y a ih =>
    cases h with
    | keep h =>
      obtain ⟨m1, m2, e, h1, h2⟩ := ih h
      exact ⟨y :: m1, m2, by rw [e]; rfl, .keep h1, h2⟩
    | skip h0 h =>
      obtain ⟨m1, m2, e, h1, h2⟩ := ih h
      exact ⟨m1, m2, e, .skip h0 h1, h2⟩

/-- The last record gives something. -/
def Full (L : List (Record × List Nat)) : Prop := ∃ l x, L = l ++ [x] ∧ x.2 ≠ []

theorem full_tail {a b : List (Record × List Nat)} (h : Full (a ++ b)) (hb : b ≠ []) : Full b := by
  obtain ⟨l, x, e, hx⟩ := h
  refine ⟨b.dropLast, x, ?_, hx⟩
  have h1 : (a ++ b).getLast (by simp [hb]) = x := by simp only [e]; simp
  rw [List.getLast_append_of_ne_nil _ hb] at h1
  rw [← h1]
  exact (List.dropLast_concat_getLast hb).symm

theorem full_bytes {b : List (Record × List Nat)} (h : Full b) : bytes b ≠ [] := by
  obtain ⟨l, x, rfl, hx⟩ := h
  rw [bytes_append, bytes_cons]
  simp [hx]

theorem thin_full {m b : List (Record × List Nat)} (h : Thin m b) (hf : Full b) : Full m := by
  obtain ⟨l, x, rfl, hx⟩ := hf
  obtain ⟨m1, m2, rfl, h1, h2⟩ := thin_split h hx
  cases h2
  exact ⟨m1, x, rfl, hx⟩

/-- The places of the records. -/
def corsOf : Nat → Nat → List (Record × List Nat) → List Cor
  | _, _, [] => []
  | k, off, x :: l => ⟨k, off, x.2.length⟩ :: corsOf (k + 1) (off + x.2.length) l

theorem corsOf_append (a b : List (Record × List Nat)) : ∀ k off, corsOf k off (a ++ b) = corsOf k off a ++ corsOf (k + a.length) (off + (bytes a).length) b := by
  induction a with
  | nil => intro k off; simp [corsOf, bytes]
  | cons x a ih =>
    intro k off
    simp only [List.cons_append, corsOf, ih, bytes_cons, List.length_append, List.length_cons]
    rw [show k + 1 + a.length = k + (a.length + 1) by omega, Nat.add_assoc off]

theorem corsOf_length (a : List (Record × List Nat)) : ∀ k off, (corsOf k off a).length = a.length := by
  induction a with
  | nil => intro k off; rfl
  | cons x a ih => intro k off; simp [corsOf, ih]

theorem corsOf_before (a : List (Record × List Nat)) : ∀ k off, ∀ c ∈ corsOf k off a, c.stream + c.chars ≤ off + (bytes a).length := by
  induction a with
  | nil => intro k off c h; cases h
  | cons x a ih =>
    intro k off c h
    rw [bytes_cons, List.length_append]
    rcases List.mem_cons.1 h with rfl | h
    · dsimp only; omega
    · have := ih _ _ c h; omega

theorem corsOf_starts (a : List (Record × List Nat)) : ∀ k off, Full a → ∀ c ∈ corsOf k off a, c.stream < off + (bytes a).length := by
  induction a with
  | nil => intro k off _ c h; cases h
  | cons x a ih =>
    intro k off hf c h
    have hpos := full_bytes hf
    rcases List.mem_cons.1 h with rfl | h
    · have : 0 < (bytes (x :: a)).length := List.length_pos_iff.2 hpos
      dsimp only; omega
    · rw [bytes_cons, List.length_append]
      cases a with
      | nil => cases h
      | cons y a =>
        have := ih _ _ (full_tail (a := [x]) hf (by simp)) c h; omega

/-- The records of the answer are taken out. -/
theorem erase_answer {m1 m2 : List (Record × List Nat)} {x : Record × List Nat} (hx : x.2 ≠ []) (hf : Full (x :: m2)) :
    erase (corsOf 0 0 (m1 ++ x :: m2)) ((m1 ++ x :: m2).map (·.1)) (bytes m1).length (bytes (m1 ++ x :: m2)).length = m1.map (·.1) := by
  have hxl : 0 < x.2.length := List.length_pos_iff.2 hx
  have e1 : (corsOf 0 0 (m1 ++ x :: m2)) = corsOf 0 0 m1 ++ corsOf m1.length (bytes m1).length (x :: m2) := by
    rw [corsOf_append]; simp
  have e2 : (corsOf 0 0 (m1 ++ x :: m2)).findIdx? (fun c => c.stream + c.chars > (bytes m1).length) = some m1.length := by
    rw [e1, List.findIdx?_append]
    have h1 : (corsOf 0 0 m1).findIdx? (fun c => decide (c.stream + c.chars > (bytes m1).length)) = none := by
      rw [List.findIdx?_eq_none_iff]
      intro c hc
      have := corsOf_before m1 0 0 c hc
      simp; omega
    rw [h1, corsOf_length]
    simp [corsOf, List.findIdx?_cons, hxl]
  unfold erase
  rw [e2]
  dsimp only
  have e3 : (corsOf 0 0 (m1 ++ x :: m2)).drop m1.length = corsOf m1.length (bytes m1).length (x :: m2) := by
    rw [e1, List.drop_append_of_le_length (by rw [corsOf_length]; exact Nat.le_refl _), List.drop_of_length_le (by rw [corsOf_length]; exact Nat.le_refl _),
      List.nil_append]
  have e4 : (corsOf 0 0 (m1 ++ x :: m2)).getD m1.length ⟨0, 0, 0⟩ = ⟨m1.length, (bytes m1).length, x.2.length⟩ := by
    rw [e1, List.getD_eq_getElem?_getD, List.getElem?_append_right (by rw [corsOf_length]; exact Nat.le_refl _), corsOf_length]
    simp [corsOf]
  have e5 : ((corsOf m1.length (bytes m1).length (x :: m2)).takeWhile fun c => decide (c.stream < (bytes (m1 ++ x :: m2)).length)).length = (x :: m2).length := by
    have hall : ∀ l : List Cor, (∀ c ∈ l, c.stream < (bytes (m1 ++ x :: m2)).length) →
        l.takeWhile (fun c => decide (c.stream < (bytes (m1 ++ x :: m2)).length)) = l := by
      intro l
      induction l with
      | nil => intro _; rfl
      | cons y l ih =>
        intro h
        rw [List.takeWhile_cons_of_pos (by simpa using h y (by simp)), ih fun c hc => h c (by simp [hc])]
    rw [hall, corsOf_length]
    intro c hc
    have := corsOf_starts (x :: m2) _ _ hf c hc
    rw [bytes_append, List.length_append]
    simpa using this
  rw [e3, e4, e5]
  dsimp only
  rw [List.map_append, List.take_append_of_le_length (by simp), List.take_of_length_le (by simp), List.drop_of_length_le (by simp), List.append_nil]

/-- The first record that gives something is found. -/
theorem peekLoop_finds {g : Cfg} (q later : List Record) : ∀ (rest : List (Record × List Nat)) (s : St), Asking s → s.pending = [] →
    (∀ x ∈ rest, Reads g x.1 x.2) → Full rest →
    ∃ D x rest', rest = D ++ x :: rest' ∧ (∀ y ∈ D, y.2 = []) ∧ x.1 ≠ .other ∧ Asking (peekLoop g s (rest.map (·.1) ++ q) later) ∧
      (peekLoop g s (rest.map (·.1) ++ q) later).processed = s.processed ∧ (peekLoop g s (rest.map (·.1) ++ q) later).pending = [x.1] ∧
      (peekLoop g s (rest.map (·.1) ++ q) later).queue = rest'.map (·.1) ++ q ++ later := by
  intro rest
  induction rest with
  | nil => intro s _ _ _ hf; exact absurd rfl (full_bytes hf)
  | cons x rest ih =>
    intro s h hp hr hf
    have hx := hr x (by simp)
    obtain ⟨l1, l2⟩ := hx.look s h
    show ∃ (D : List (Record × List Nat)) (y : Record × List Nat) (rest' : List (Record × List Nat)), _ ∧ _ ∧ _ ∧ Asking (peekLoop g s (x.1 :: (rest.map (·.1) ++ q)) later) ∧ (peekLoop g s (x.1 :: (rest.map (·.1) ++ q)) later).processed = _ ∧
      (peekLoop g s (x.1 :: (rest.map (·.1) ++ q)) later).pending = [y.1] ∧ (peekLoop g s (x.1 :: (rest.map (·.1) ++ q)) later).queue = _
    unfold peekLoop
    by_cases hb : (peekRecord g s x.1).2.1 = true
    · rw [if_pos hb]
      exact ⟨[], x, rest, rfl, by simp, hx.some s hb, ⟨⟨l1.len, l1.head, l1.1.count⟩, l1.empty, l1.lead, l1.sending⟩, l2.processed, rfl, rfl⟩
    · rw [if_neg hb]
      have hx0 : x.2 = [] := Classical.byContradiction fun hh => hb (hx.yes s h hh)
      have hne : rest ≠ [] := by
        rintro rfl
        exact full_bytes hf (by rw [bytes_cons, hx0]; rfl)
      obtain ⟨D, y, rest', e1, e2, e3, e4, e5, e6, e7⟩ := ih (peekRecord g s x.1).1 l1 (l2.pending.trans hp) (fun y hy => hr y (by simp [hy])) (full_tail (a := [x]) hf hne)
      refine ⟨x :: D, y, rest', by rw [e1]; rfl, ?_, e3, e4, e5.trans l2.processed, e6, e7⟩
      intro z hz
      rcases List.mem_cons.1 hz with rfl | hz
      · exact hx0
      · exact e2 z hz

theorem available_finds {g : Cfg} {s : St} (h : Asking s) (ho : One s) {rest : List (Record × List Nat)} {B : List Record} (hr : ∀ x ∈ rest, Reads g x.1 x.2)
    (hf : Full rest) (hq : s.pending ++ s.queue = rest.map (·.1) ++ B) {n : Nat} (hn : rest.length ≤ n) :
    ∃ D x rest', rest = D ++ x :: rest' ∧ (∀ y ∈ D, y.2 = []) ∧ x.1 ≠ .other ∧ Asking (available g s n).1 ∧ (available g s n).2 = true ∧
      (available g s n).1.processed = s.processed ∧ (available g s n).1.pending = [x.1] ∧ (available g s n).1.queue = rest'.map (·.1) ++ B := by
  rcases ho with hp | ⟨r, hp, hro⟩
  · rw [hp, List.nil_append] at hq
    have e1 : s.queue.take n = rest.map (·.1) ++ B.take (n - rest.length) := by
      rw [hq, List.take_append, List.take_of_length_le (by simpa using hn), List.length_map]
    have e2 : s.queue.drop n = B.drop (n - rest.length) := by
      rw [hq, List.drop_append, List.drop_of_length_le (by simpa using hn), List.length_map, List.nil_append]
    obtain ⟨D, y, rest', a1, a2, a3, a4, a5, a6, a7⟩ := peekLoop_finds (g := g) (B.take (n - rest.length)) (B.drop (n - rest.length)) rest s h hp hr hf
    refine ⟨D, y, rest', a1, a2, a3, ?_⟩
    unfold available
    rw [if_neg (by rw [h.empty, hp]; simp), e1, e2]
    refine ⟨a4, ?_, a5, a6, ?_⟩
    · dsimp only; rw [a6]; simp
    · dsimp only; rw [a7, List.append_assoc, List.take_append_drop]
  · have he : available g s n = (s, true) := by
      unfold available
      rw [if_pos (Or.inr (by rw [hp]; simp))]
    cases rest with
    | nil => exact absurd rfl (full_bytes hf)
    | cons x rest =>
      rw [hp] at hq
      injection hq with q1 q2
      rw [he]
      exact ⟨[], x, rest, rfl, by simp, fun hh => hro (q1.trans hh), h, rfl, rfl, hp.trans (congrArg (fun r => [r]) q1), q2⟩

/-- What is asked for comes with the last record. -/
theorem ask_finds {g : Cfg} {pre : List Nat} {f : Nat} {old : Nat} {time : Nat → Nat} {L : List (Record × List Nat)} {B : List Record}
    {w : List Nat} {b e : Nat} (hL : ∀ x ∈ L, Reads g x.1 x.2) (hfull : Full L) (hlen : old + L.length ≤ 16384) (hsz : (bytes L).length < 65536)
    (hnone : ∀ d r, L = d ++ r → r ≠ [] → findCode pre (some f) (bytes d).length {} 0 (bytes d) = none)
    (hfin : isFinal (some f) (bytes L) = true) (hsome : findCode pre (some f) (bytes L).length {} 0 (bytes L) = some (w, b, e))
    (htime : ∀ i, L.length ≤ time i) :
    ∀ (n i : Nat) (s : St) (M done rest : List (Record × List Nat)), L = done ++ rest → rest ≠ [] → rest.length ≤ n → Thin M done → Asking s → One s →
      s.processed = M.map (·.1) → s.pending ++ s.queue = rest.map (·.1) ++ B →
      ∃ (M' : List (Record × List Nat)) (u : St), Thin M' L ∧ u.pending = [] ∧ u.queue = B ∧
        ask g pre (some f) old time n i s (bytes done) (corsOf 0 0 M) = ({ u with processed := erase (corsOf 0 0 M') (M'.map (·.1)) b e }, w) := by
  intro n
  induction n with
  | zero =>
    intro i s M done rest _ hr hn
    cases rest with
    | nil => exact absurd rfl hr
    | cons => simp at hn
  | succ n ih =>
    intro i s M done rest hd hr hn hM ha ho hpr hq
    have hrf : Full rest := full_tail (by rw [← hd]; exact hfull) hr
    have hdl : L.length = done.length + rest.length := by rw [hd]; simp
    have hti := htime i
    obtain ⟨D, x, rest', e1, e2, e3, e4, e5, e6, e7, e8⟩ := available_finds ha ho (fun x hx => hL x (by rw [hd]; simp [hx])) hrf hq (n := time i) (by omega)
    have hrl : rest.length = D.length + (rest'.length + 1) := by rw [e1]; simp
    have hML := thin_length hM
    obtain ⟨a, aok⟩ : ∃ a, available g s (time i) = a := ⟨_, rfl⟩
    obtain ⟨t, yes⟩ := a
    rw [aok] at e4 e5 e6 e7 e8
    dsimp only at e4 e5 e6 e7 e8
    subst e5
    have hprl : t.processed.length = M.length := by rw [e6, hpr, List.length_map]
    have hxr : Reads g x.1 x.2 := hL x (by rw [hd, e1]; simp)
    obtain ⟨u, u1, u2, u3, u4, ee⟩ := ask_round (pre := pre) (fin := some f) (old := old) (n := n) (input := bytes done) (cors := corsOf 0 0 M) aok e4 e7 e3 hxr (by omega)
    -- the list of what was read
    have hM' : Thin (M ++ [x]) (done ++ (D ++ [x])) := thin_append hM (thin_append (a := []) (thin_drop e2) (.keep .nil))
    have hd' : L = (done ++ (D ++ [x])) ++ rest' := by rw [hd, e1]; simp
    have hbD : bytes D = [] := (thin_bytes (thin_drop e2)).symm
    have hin : bytes done ++ x.2 = bytes (done ++ (D ++ [x])) := by
      rw [bytes_append, bytes_append, hbD, bytes_cons]; simp [bytes]
    have hle : (bytes (done ++ (D ++ [x]))).length ≤ (bytes L).length := by rw [hd', bytes_append _ rest', List.length_append]; omega
    have hbM : bytes M = bytes done := thin_bytes hM
    have hc : corsOf 0 0 M ++ [⟨t.processed.length, (bytes done).length % 65536, ((bytes done ++ x.2).length - (bytes done).length % 65536) % 65536⟩] = corsOf 0 0 (M ++ [x]) := by
      have hl2 : (bytes done).length + x.2.length < 65536 := by
        have := congrArg List.length hin
        rw [List.length_append] at this
        omega
      rw [corsOf_append, hbM, hprl, List.length_append, Nat.mod_eq_of_lt (by omega), Nat.add_sub_cancel_left, Nat.mod_eq_of_lt (by omega)]
      simp [corsOf]
    have hpu : u.processed = (M ++ [x]).map (·.1) := by rw [u4, e6, hpr]; simp
    rw [ee]
    dsimp only
    rw [hc, hin]
    by_cases hr' : rest' = []
    · rw [hr', List.append_nil] at hd'
      rw [← hd'] at hM' ⊢
      rw [if_pos ⟨full_bytes hfull, hfin⟩, hsome]
      refine ⟨M ++ [x], u, hM', u2, ?_, ?_⟩
      · rw [u3, e8, hr']; rfl
      · dsimp only
        rw [hpu]
    · have hnn := hnone _ _ hd' hr'
      rw [hnn]
      dsimp only
      rw [ite_self]
      exact ih (i + 1) u (M ++ [x]) _ rest' hd' hr' (by omega) hM' u1 (Or.inl u2) hpu (by rw [u2, u3, e8]; rfl)

/-! ## The records of keys that are typed, and those of the answer -/

theorem quiet_gives {g : Cfg} {r : Record} (h : Quiet g r) : Gives g 0 [r] [] := .quiet h .nil

theorem typed_plan {g : Cfg} (hp : Plain g.keys) {pre : List Nat} {f : Nat} {A : List Record} {ws : List (List Nat)} (h : Typed g pre f A ws) :
    (∀ v ∈ ws, Item pre f v) ∧ ∃ LA : List (Record × List Nat), LA.map (·.1) = A ∧ bytes LA = flat ws.flatten ∧ (∀ x ∈ LA, Reads g x.1 x.2 ∧ Gives g 0 [x.1] x.2) ∧
      ∀ d r, LA = d ++ r → ∃ vs : List (List Nat), (∀ v ∈ vs, Item pre f v) ∧ bytes d = flat vs.flatten := by
  induction h with
  | nil =>
    refine ⟨by simp, [], rfl, rfl, by simp, fun d r h => ⟨[], by simp, ?_⟩⟩
    have := List.append_eq_nil_iff.1 h.symm
    rw [this.1]; rfl
  | @quiet r rs ws h _ ih =>
    obtain ⟨i0, LA, i1, i2, i3, i4⟩ := ih
    refine ⟨i0, (r, []) :: LA, by simp [i1], by rw [bytes_cons, i2]; rfl, ?_, ?_⟩
    · intro x hx
      rcases List.mem_cons.1 hx with rfl | hx
      · exact ⟨quiet_reads hp h, quiet_gives h⟩
      · exact i3 x hx
    · intro d q he
      cases d with
      | nil => exact ⟨[], by simp, rfl⟩
      | cons y d =>
        injection he with he1 he2
        obtain ⟨vs, v1, v2⟩ := i4 d q he2
        exact ⟨vs, v1, by rw [bytes_cons, ← he1, v2]; rfl⟩
  | @key k rs vs ws h hk hv _ ih =>
    obtain ⟨i0, LA, i1, i2, i3, i4⟩ := ih
    obtain ⟨c, c1, _, c3⟩ := alone_reads hp h (fun hh => absurd hh hk)
    rw [c3 (fun k' hk' => by injection hk' with hk'; rw [← hk']; exact hk)] at c1
    refine ⟨?_, (.key k, flat vs.flatten) :: LA, by simp [i1], by rw [bytes_cons, i2, List.flatten_append, Ecma48.flat_cat], ?_, ?_⟩
    · intro v hv'
      rcases List.mem_append.1 hv' with h1 | h1
      · exact hv v h1
      · exact i0 v h1
    · intro x hx
      rcases List.mem_cons.1 hx with rfl | hx
      · exact ⟨c1, h⟩
      · exact i3 x hx
    · intro d q he
      cases d with
      | nil => exact ⟨[], by simp, rfl⟩
      | cons y d =>
        injection he with he1 he2
        obtain ⟨vs', v1, v2⟩ := i4 d q he2
        refine ⟨vs ++ vs', ?_, by rw [bytes_cons, ← he1, v2, List.flatten_append, Ecma48.flat_cat]⟩
        intro v hv'
        rcases List.mem_append.1 hv' with h1 | h1
        · exact hv v h1
        · exact v1 v h1

/-- Quiet records in front, the first byte, the others, and quiet records at the end. -/
theorem sent_plan {g : Cfg} (hp : Plain g.keys) {R : List Record} {w : List Nat} (h : Sent g R w) :
    (w = [] ∧ ∀ r ∈ R, Quiet g r) ∨ ∃ (Q : List Record) (x : Record × List Nat) (L2 : List (Record × List Nat)) (Q2 : List Record), R = Q ++ (x :: L2).map (·.1) ++ Q2 ∧
      (∀ r ∈ Q, Quiet g r) ∧ (∀ r ∈ Q2, Quiet g r) ∧ x.2 ≠ [] ∧ Full (x :: L2) ∧ bytes (x :: L2) = w ∧ ∀ y ∈ x :: L2, Reads g y.1 y.2 := by
  induction h with
  | nil => exact Or.inl ⟨rfl, by simp⟩
  | @quiet r rs w h _ ih =>
    rcases ih with ⟨h1, h2⟩ | ⟨Q, x, L2, Q2, h1, h2, h3⟩
    · exact Or.inl ⟨h1, by simpa using ⟨h, h2⟩⟩
    · exact Or.inr ⟨r :: Q, x, L2, Q2, by rw [h1]; rfl, by simpa using ⟨h, h2⟩, h3⟩
  | @key k rs b w h hb hh _ ih =>
    have hrd : Reads g (.key k) [b] := by
      have := chunk_reads hp (chunk_chars h (by simp [Spec.Unit]; omega))
      rw [List.flatMap_cons, List.flatMap_nil, List.append_nil, Ecma48.utf8_ascii hb, hh] at this
      exact this
    rcases ih with ⟨h1, h2⟩ | ⟨Q, x, L2, Q2, h1, h2, h3, h4, h5, h6, h7⟩
    · exact Or.inr ⟨[], (.key k, [b]), [], rs, rfl, by simp, h2, by simp, ⟨[], _, rfl, by simp⟩, by rw [h1]; rfl, by simpa using hrd⟩
    · refine Or.inr ⟨[], (.key k, [b]), Q.map (fun r => (r, [])) ++ x :: L2, Q2, ?_, by simp, h3, by simp, ?_, ?_, ?_⟩
      · rw [h1]; simp [List.map_map, Function.comp_def]
      · obtain ⟨l, y, e, hy⟩ := h5
        exact ⟨(.key k, [b]) :: (Q.map (fun r => (r, [])) ++ l), y, by rw [e]; simp, hy⟩
      · rw [bytes_cons, bytes_append, h6]
        have : bytes (Q.map (fun r => (r, ([] : List Nat)))) = [] := by
          refine (thin_bytes (thin_drop ?_)).symm
          intro y hy
          obtain ⟨r, _, rfl⟩ := List.mem_map.1 hy
          rfl
        rw [this]; rfl
      · intro y hy
        rcases List.mem_cons.1 hy with rfl | hy
        · exact hrd
        · rcases List.mem_append.1 hy with hy | hy
          · obtain ⟨r, hr, rfl⟩ := List.mem_map.1 hy
            exact quiet_reads hp (h2 r hr)
          · exact h7 y hy

theorem request_answer {g : Cfg} (hp : Plain g.keys) {pre : List Nat} {f : Nat} (hpre : [27, 91] <+: pre) {first : Nat} {time : Nat → Nat} {s : St} (hr : s.Ring)
    {A R B : List Record} {ws : List (List Nat)} {w : List Nat} (hq : s.queue = A ++ R ++ B) (hA : Typed g pre f A ws) (hR : Sent g R w) (hw : Csi w)
    (ha : Answers pre f w) (hlen : s.pending.length < 15360 ∧ s.pending.length + (A ++ R).length ≤ 16384) (hsz : (flat ws.flatten ++ w).length ≤ Ecma48.bufferLimit)
    (ht : (A ++ R).length ≤ first ∧ ∀ i, (A ++ R).length ≤ time i) :
    (request g pre (some f) first time s).2 = w ∧ ∃ Y Q, (request g pre (some f) first time s).1.pending = s.pending ++ Y ∧
      (request g pre (some f) first time s).1.queue = Q ++ B ∧ (∀ r ∈ Q, Quiet g r) ∧ (∀ r ∈ Y, Alone g r) ∧ Each g Y (flat ws.flatten) := by
  obtain ⟨hv, LA, a1, a2, a3, a4⟩ := typed_plan hp hA
  have hw0 : w ≠ [] := by obtain ⟨ps, is, f, rfl, _⟩ := hw; simp
  rcases sent_plan hp hR with ⟨h0, _⟩ | ⟨Q, x, L2, Q2, r1, r2, r3, r4, r5, r6, r7⟩
  · exact absurd h0 hw0
  -- everything up to the last byte of the answer
  obtain ⟨L1, hL1⟩ : ∃ L1, L1 = LA ++ Q.map (fun r => (r, ([] : List Nat))) := ⟨_, rfl⟩
  have hQb : bytes (Q.map (fun r => (r, ([] : List Nat)))) = [] := by
    refine (thin_bytes (thin_drop ?_)).symm
    intro y hy
    obtain ⟨r, _, rfl⟩ := List.mem_map.1 hy
    rfl
  have b1 : bytes L1 = flat ws.flatten := by rw [hL1, bytes_append, hQb, List.append_nil, a2]
  have g1 : ∀ y ∈ L1, Reads g y.1 y.2 ∧ Gives g 0 [y.1] y.2 := by
    intro y hy
    rw [hL1] at hy
    rcases List.mem_append.1 hy with hy | hy
    · exact a3 y hy
    · obtain ⟨r, hr, rfl⟩ := List.mem_map.1 hy
      exact ⟨quiet_reads hp (r2 r hr), quiet_gives (r2 r hr)⟩
  have p1 : ∀ d r, L1 = d ++ r → ∃ vs : List (List Nat), (∀ v ∈ vs, Item pre f v) ∧ bytes d = flat vs.flatten := by
    intro d r he
    rw [hL1] at he
    rcases List.append_eq_append_iff.1 he with ⟨c, c1, c2⟩ | ⟨c, c1, c2⟩
    · refine ⟨ws, hv, ?_⟩
      rw [c1, bytes_append, a2]
      have : bytes c = [] := by
        have := hQb
        rw [c2, bytes_append] at this
        exact (List.append_eq_nil_iff.1 this).1
      rw [this, List.append_nil]
    · exact a4 d c c1
  have m1 : L1.map (·.1) = A ++ Q := by rw [hL1, List.map_append, a1]; simp [List.map_map, Function.comp_def]
  have bL : bytes (L1 ++ x :: L2) = flat ws.flatten ++ w := by rw [bytes_append, b1, r6]
  have hfull : Full (L1 ++ x :: L2) := by
    obtain ⟨l, y, e, hy⟩ := r5
    exact ⟨L1 ++ l, y, by rw [e, List.append_assoc], hy⟩
  have hqL : s.queue = (L1 ++ x :: L2).map (·.1) ++ (Q2 ++ B) := by
    rw [hq, r1, List.map_append, m1]; simp
  have hLl : (L1 ++ x :: L2).length ≤ (A ++ R).length := by
    rw [r1, ← List.length_map (f := (·.1)) (as := L1 ++ x :: L2), List.map_append, m1]
    simp
  have hLr : ∀ y ∈ L1 ++ x :: L2, Reads g y.1 y.2 := by
    intro y hy
    rcases List.mem_append.1 hy with hy | hy
    · exact (g1 y hy).1
    · exact r7 y hy
  have hlim : Ecma48.bufferLimit < 65536 := by decide
  have hnone : ∀ d r, L1 ++ x :: L2 = d ++ r → r ≠ [] → findCode pre (some f) (bytes d).length {} 0 (bytes d) = none := by
    intro d r he hr0
    rcases List.append_eq_append_iff.1 he with ⟨c, c1, c2⟩ | ⟨c, c1, c2⟩
    · have hbr : bytes r ≠ [] := full_bytes (full_tail (a := c) (by rw [← c2]; exact r5) hr0)
      rw [c1, bytes_append, b1]
      exact find_none hpre _ hv hw (by rw [← r6, c2, bytes_append]) hbr hsz
    · obtain ⟨vs, v1, v2⟩ := p1 d c c1
      have hle : (bytes d).length ≤ (flat ws.flatten).length := by rw [← b1, c1, bytes_append, List.length_append]; omega
      rw [v2] at hle
      have := find_none hpre (bytes d).length v1 hw (p := []) (r := w) rfl hw0 (by rw [List.length_append] at hsz ⊢; omega)
      rwa [List.append_nil, ← v2] at this
  have hsome := find_some hpre hv hw ha hsz
  rw [← bL] at hsome
  have hfin : isFinal (some f) (bytes (L1 ++ x :: L2)) = true := by
    rw [isFinal_iff, bL, List.getLast?_append, ha.2]; rfl
  have hszL : (bytes (L1 ++ x :: L2)).length < 65536 := by rw [bL]; omega
  -- the request
  have hask := start_asking hr
  unfold request
  rw [if_neg (by omega)]
  generalize hs1 : ({ s with pending := [], processed := [], head := 0, count := 0, lead := 0, sending := true } : St) = s1 at hask ⊢
  have e1 : s1.pending = [] := by rw [← hs1]
  have e2 : s1.queue = s.queue := by rw [← hs1]
  have e3 : s1.processed = [] := by rw [← hs1]
  dsimp only
  obtain ⟨D, y, rest', f1, f2, f3, f4, f5, f6, f7, f8⟩ := available_finds hask (Or.inl e1) hLr hfull (B := Q2 ++ B) (by rw [e1, e2, hqL]; rfl) (n := first) (by omega)
  generalize available g s1 first = a at *
  rw [if_pos f5]
  have hbD : bytes D = [] := (thin_bytes (thin_drop f2)).symm
  obtain ⟨M, u, t1, t2, t3, t4⟩ := ask_finds (old := s.pending.length) (time := time) hLr hfull (by omega) hszL hnone hfin hsome (fun i => by have := ht.2 i; omega) (B := Q2 ++ B)
    (s.queue.length + 1) 0 { a.1 with force := true } [] D (y :: rest') f1 (by simp)
    (by
      have h1 := congrArg List.length hqL
      have h2 := congrArg List.length f1
      simp at h1 h2 ⊢; omega)
    (thin_drop f2) ⟨⟨f4.len, f4.head, f4.1.count⟩, f4.empty, f4.lead, f4.sending⟩ (Or.inr ⟨y.1, f7, f3⟩) (by show a.1.processed = _; rw [f6, e3]; rfl)
    (by show a.1.pending ++ a.1.queue = _; rw [f7, f8]; simp)
  rw [hbD] at t4
  simp only [corsOf] at t4
  rw [t4]
  dsimp only
  obtain ⟨M1, M2, d1, d2, d3⟩ := thin_split t1 r4
  have hMf : Full (x :: M2) := full_tail (a := M1) (by rw [← d1]; exact thin_full t1 hfull) (by simp)
  have hb1 : (flat ws.flatten).length = (bytes M1).length := by rw [thin_bytes d2, b1]
  have hbt : (bytes (L1 ++ x :: L2)).length = (bytes (M1 ++ x :: M2)).length := by rw [← d1, thin_bytes t1]
  refine ⟨rfl, M1.map (·.1), Q2, ?_, t3, r3, ?_, ?_⟩
  · rw [t2, List.append_nil, hb1, hbt, d1, erase_answer r4 hMf]
  · intro r hr
    obtain ⟨z, hz, rfl⟩ := List.mem_map.1 hr
    exact ⟨_, (g1 z (thin_mem d2 z hz)).2⟩
  · rw [← b1, ← thin_bytes d2]
    have : ∀ z ∈ M1, Gives g 0 [z.1] z.2 := fun z hz => (g1 z (thin_mem d2 z hz)).2
    clear hb1 hbt hMf d1 d2 d3
    induction M1 with
    | nil => exact .nil
    | cons z M1 ih => rw [bytes_cons]; exact .cons (this z (by simp)) (ih fun y hy => this y (by simp [hy]))

theorem findCode_answer (pre : List Nat) (fin : Option Nat) (n : Nat) (s : Ecma48.State) (m : Nat) (l : List Nat) :
    ∀ r, findCode pre fin n s m l = some r → starts pre r.1 = true ∧ isFinal fin r.1 = true := by
  fun_induction findCode pre fin n s m l with
  | case1 => intro r h; cases h
  | case2 s m l p s' n' l' he hc =>
    intro r h
    injection h with h
    rw [← h]
    exact ⟨hc.2.1, hc.2.2⟩
  | case3 s m l p s' n' l' he hc hlt ih => exact ih
  | case4 => intro r h; cases h

theorem ask_answer (g : Cfg) (pre : List Nat) (fin : Option Nat) (old : Nat) (time : Nat → Nat) : ∀ (n i : Nat) (s : St) (input : List Nat) (cors : List Cor),
    (ask g pre fin old time n i s input cors).2 = [] ∨
      (starts pre (ask g pre fin old time n i s input cors).2 = true ∧ isFinal fin (ask g pre fin old time n i s input cors).2 = true) := by
  intro n
  induction n with
  | zero => intro i s input cors; exact Or.inl rfl
  | succ n ih =>
    intro i s input cors
    unfold ask
    dsimp only
    split
    · split
      · split
        · rename_i text b e hf
          exact Or.inr (findCode_answer _ _ _ _ _ _ _ hf)
        · exact ih _ _ _ _
      · exact ih _ _ _ _
    · exact Or.inl rfl

theorem request_honest (g : Cfg) (pre : List Nat) (fin : Option Nat) (first : Nat) (time : Nat → Nat) (s : St) :
    (request g pre fin first time s).2 = [] ∨
      (starts pre (request g pre fin first time s).2 = true ∧ isFinal fin (request g pre fin first time s).2 = true) := by
  unfold request
  split
  · exact Or.inl rfl
  · dsimp only
    split
    · exact ask_answer _ _ _ _ _ _ _ _ _ _
    · exact Or.inl rfl

end Clink.TermReq
