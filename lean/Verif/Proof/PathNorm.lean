import Verif.Proof.Path

/-! Normalisation in place: the memory after each step. -/

namespace Clink.Path

open StrCompare (isSep)
open Spec

theorem wr_app {X Y : List Nat} {c v : Nat} : wr (X ++ c :: Y) X.length v = some (X ++ v :: Y) := by
  simp [wr, List.set_append]

theorem at_app {X l T : List Nat} (h : 0 ∉ l) : At (X ++ (l ++ 0 :: T)) X.length l :=
  ⟨⟨T, by simp⟩, h⟩

theorem afterSeps_le (l : List Nat) : (afterSeps l).length ≤ l.length := (afterSeps_suffix l).length_le

/-- Runs of separators reduced to their first character. -/
def squash : List Nat → List Nat
  | [] => []
  | c :: l => if isSep c then c :: squash (afterSeps l) else c :: squash l
termination_by l => l.length
decreasing_by
  · have := afterSeps_le l; simp; omega
  · simp

theorem squash_le (l : List Nat) : (squash l).length ≤ l.length := by
  fun_induction squash l with
  | case1 => simp
  | case2 c l h ih => have := afterSeps_le l; simp; omega
  | case3 c l h ih => simp; omega

/-- Writing one byte at the front of the region `G ++ d`, of which `d` is still to be read. -/
theorem wr_front {X G Y : List Nat} {c v : Nat} {d : List Nat} :
    wr (X ++ (G ++ c :: d) ++ Y) X.length v = some (X ++ [v] ++ ((G ++ [c]).drop 1 ++ d) ++ Y) := by
  cases G with
  | nil => simpa using wr_app (X := X) (Y := d ++ Y) (c := c) (v := v)
  | cons g G => simpa using wr_app (X := X) (Y := G ++ c :: d ++ Y) (c := g) (v := v)

theorem drop_front {G : List Nat} {c : Nat} : ((G ++ [c]).drop 1).length = G.length := by simp

theorem afterSeps_append {d r : List Nat} (h : (∀ c ∈ d, isSep c = true) → ∀ c, r.head? = some c → isSep c = false) :
    afterSeps (d ++ r) = afterSeps d ++ r := by
  induction d with
  | nil =>
    have := h (by simp)
    cases r with
    | nil => rfl
    | cons c r => simp [afterSeps, this c rfl]
  | cons c d ih =>
    cases hc : isSep c with
    | true =>
      simp only [List.cons_append, afterSeps, List.dropWhile_cons, hc, if_true] at ih ⊢
      apply ih
      intro h'
      apply h
      intro x hx
      rcases List.mem_cons.1 hx with rfl | hx
      · exact hc
      · exact h' x hx
    | false => simp [afterSeps, hc]

/-- `past` is not in the middle of a run of separators. -/
def NoJump (d r : List Nat) : Prop :=
  ∀ c, d.getLast? = some c → isSep c = true → ∀ e, r.head? = some e → isSep e = false

theorem NoJump.suffix {d d' r : List Nat} (h : NoJump d r) (hs : d' <:+ d) : NoJump d' r := by
  intro c hc
  obtain ⟨a, rfl⟩ := hs
  apply h c
  rw [List.getLast?_append, hc]; rfl

theorem NoJump.append {d r : List Nat} {c : Nat} (h : NoJump (c :: d) r) (hc : isSep c = true) :
    afterSeps (d ++ r) = afterSeps d ++ r := by
  apply afterSeps_append
  intro hall e he
  rcases List.eq_nil_or_concat d with rfl | ⟨d', x, rfl⟩
  · exact h c rfl hc e he
  · exact h x (by simp [List.getLast?_cons, List.concat_eq_append]) (hall x (by simp)) e he

theorem copyPrefix_to (r T : List Nat) (hr : 0 ∉ r) (d : List Nat) (hd : 0 ∉ d) (hj : NoJump d r) (X G : List Nat) :
    copyPrefix (X.length + G.length + d.length) (X ++ (G ++ d) ++ (r ++ 0 :: T)) (X.length + G.length) X.length
      = some (X ++ (squash d ++ (G ++ d).drop (squash d).length) ++ (r ++ 0 :: T), X.length + G.length + d.length) := by
  match d, hd, hj with
  | [], _, _ => rw [copyPrefix]; simp [squash]
  | c :: d, hd, hj =>
    rw [copyPrefix, dif_pos (by simp)]
    have h1 : At (X ++ (G ++ c :: d) ++ (r ++ 0 :: T)) (X.length + G.length) (c :: d ++ r) := by
      refine ⟨⟨T, ?_⟩, ?_⟩
      · rw [List.append_assoc, List.append_assoc, List.drop_append, List.drop_of_length_le (by omega)]
        simp
      · simp only [List.mem_append, not_or]; exact ⟨hd, hr⟩
    rw [h1.rd0]
    simp only [List.cons_append, List.headD_cons, Option.bind_eq_bind, Option.bind_some]
    rw [wr_front]
    simp only [Option.bind_some]
    have hlen : X.length + G.length = (X ++ [c]).length + G.length - 1 := by simp
    have h2 : At (X ++ [c] ++ ((G ++ [c]).drop 1 ++ d) ++ (r ++ 0 :: T)) (X.length + G.length) (c :: d ++ r) := by
      refine ⟨⟨T, ?_⟩, h1.2⟩
      cases G with
      | nil => simp
      | cons g G =>
        have : X ++ [c] ++ ((g :: G ++ [c]).drop 1 ++ d) ++ (r ++ 0 :: T) = (X ++ c :: G) ++ (c :: d ++ r ++ 0 :: T) := by simp
        rw [this]
        have e : X.length + (g :: G).length = (X ++ c :: G).length := by simp
        rw [e, List.drop_append_of_le_length (Nat.le_refl _)]
        rw [List.drop_of_length_le (Nat.le_refl _), List.nil_append]
    cases hc : isSep c with
    | true =>
      simp only [if_true]
      rw [skipSep_at h2]
      simp only [Option.bind_some]
      have e1 : afterSeps (c :: d ++ r) = afterSeps d ++ r := by
        simp only [List.cons_append]
        show List.dropWhile isSep _ = _
        rw [List.dropWhile_cons, if_pos hc]; exact hj.append hc
      have hle := afterSeps_le d
      rw [e1, if_pos (by simp; omega)]
      have hs : afterSeps d <:+ c :: d := (afterSeps_suffix d).trans (List.suffix_cons _ _)
      have e2 : X.length + G.length + ((c :: d ++ r).length - (afterSeps d ++ r).length)
          = (X ++ [c]).length + ((G ++ [c]).drop 1 ++ d.takeWhile isSep).length := by
        have : d.length = (d.takeWhile isSep).length + (afterSeps d).length := by
          have := congrArg List.length (List.takeWhile_append_dropWhile (p := isSep) (l := d))
          simp only [List.length_append] at this
          exact this.symm
        simp; omega
      have e3 : X.length + G.length + (c :: d).length
          = (X ++ [c]).length + ((G ++ [c]).drop 1 ++ d.takeWhile isSep).length + (afterSeps d).length := by
        simp only [List.length_append, List.length_cons] at e2 ⊢
        omega
      have e4 : X ++ [c] ++ ((G ++ [c]).drop 1 ++ d) ++ (r ++ 0 :: T)
          = (X ++ [c]) ++ (((G ++ [c]).drop 1 ++ d.takeWhile isSep) ++ afterSeps d) ++ (r ++ 0 :: T) := by
        have : d = d.takeWhile isSep ++ afterSeps d := (List.takeWhile_append_dropWhile (p := isSep) (l := d)).symm
        conv => lhs; rw [this]
        simp
      rw [e2, e3, e4, show X.length + 1 = (X ++ [c]).length by simp,
        copyPrefix_to r T hr (afterSeps d) (fun h => hd (hs.subset h)) (hj.suffix hs)]
      congr 1
      have e5 : squash (c :: d) = c :: squash (afterSeps d) := by rw [squash, if_pos hc]
      rw [e5]
      have e6 : (G ++ [c]).drop 1 ++ d.takeWhile isSep ++ afterSeps d = (G ++ c :: d).drop 1 := by
        have : d.takeWhile isSep ++ afterSeps d = d := List.takeWhile_append_dropWhile (p := isSep) (l := d)
        rw [List.append_assoc, this]
        cases G <;> simp
      rw [e6]
      simp [Nat.add_comm]
    | false =>
      simp only [Bool.false_eq_true, if_false]
      have e2 : X.length + G.length + 1 = (X ++ [c]).length + ((G ++ [c]).drop 1).length := by simp; omega
      have e3 : X.length + G.length + (c :: d).length
          = (X ++ [c]).length + ((G ++ [c]).drop 1).length + d.length := by simp; omega
      rw [e2, e3, show X.length + 1 = (X ++ [c]).length by simp,
        copyPrefix_to r T hr d (fun h => hd (List.mem_cons_of_mem _ h)) (hj.suffix (List.suffix_cons _ _))]
      congr 1
      have e5 : squash (c :: d) = c :: squash d := by rw [squash, if_neg (by simp [hc])]
      rw [e5]
      have e6 : (G ++ [c]).drop 1 ++ d = (G ++ c :: d).drop 1 := by
        cases G <;> simp
      rw [e6]
      simp [Nat.add_comm]
termination_by d.length
decreasing_by all_goals (have := afterSeps_le d; simp only [List.length_cons]; omega)

/-- What `popElement` leaves of the text after `start`. -/
def pop (out : List Nat) : List Nat := (out.dropLast.reverse.dropWhile (fun c => !isSep c)).reverse

theorem popElement_to (A : List Nat) (hA : A ≠ []) (Y : List Nat) (out : List Nat) :
    popElement (A ++ (out ++ Y)) A.length (A.length + out.length) = some (A.length + (pop out).length) := by
  rcases List.eq_nil_or_concat out with rfl | ⟨o, x, rfl⟩
  · rw [popElement]; simp [pop]
  · rw [popElement, dif_pos (by simp)]
    have hA1 : 0 < A.length := List.length_pos_iff.2 hA
    rw [if_neg (by simp; omega)]
    simp only [List.concat_eq_append, List.length_append, List.length_cons, List.length_nil, Nat.zero_add]
    rcases List.eq_nil_or_concat o with rfl | ⟨o, y, rfl⟩
    · have : rd (A ++ ([] ++ [x] ++ Y)) (A.length + (([] : List Nat).length + 1) - 2) = some (A[A.length - 1]'(by omega)) := by
        unfold rd
        rw [List.getElem?_append_left (by simp; omega)]
        simp [hA1]
      rw [this]
      simp only [Option.bind_eq_bind, Option.bind_some]
      have hp : pop ([] ++ [x]) = [] := by simp [pop]
      rw [hp]
      split
      · simp
      · simp only [List.length_nil]
        rw [show A.length + (0 + 1) - 1 = A.length by omega, popElement, dif_neg (by omega)]
        rfl
    · have : rd (A ++ (o.concat y ++ [x] ++ Y)) (A.length + ((o.concat y).length + 1) - 2) = some y := by
        unfold rd
        simp only [List.concat_eq_append]
        have e : A ++ (o ++ [y] ++ [x] ++ Y) = (A ++ o) ++ y :: (x :: Y) := by simp
        rw [e, show A.length + ((o ++ [y]).length + 1) - 2 = (A ++ o).length by simp; omega]
        simp
      rw [this]
      simp only [Option.bind_eq_bind, Option.bind_some]
      cases hy : isSep y with
      | true =>
        have hp : pop (o.concat y ++ [x]) = o.concat y := by simp [pop, hy]
        rw [hp]
        simp
      | false =>
        have hp : pop (o.concat y ++ [x]) = pop (o.concat y) := by simp [pop, hy]
        rw [hp]
        simp only [Bool.false_eq_true, if_false]
        have := popElement_to A hA (x :: Y) (o.concat y)
        rw [show A.length + ((o.concat y).length + 1) - 1 = A.length + (o.concat y).length by omega]
        rw [← this]
        simp
termination_by out.length
decreasing_by all_goals (subst_vars; simp)

/-- Separators of a copied element become `sep`. -/
def conv (sep c : Nat) : Nat := if isSep c then sep else c

theorem copyElement_to (sep : Nat) (Y : List Nat) (seg : List Nat) (X G : List Nat) :
    copyElement sep (X.length + G.length + seg.length) (X ++ (G ++ seg) ++ Y) (X.length + G.length) X.length
      = some (X ++ (seg.map (conv sep) ++ (G ++ seg).drop seg.length) ++ Y, X.length + seg.length) := by
  induction seg generalizing X G with
  | nil => rw [copyElement]; simp
  | cons c seg ih =>
    rw [copyElement, dif_pos (by simp)]
    have : rd (X ++ (G ++ c :: seg) ++ Y) (X.length + G.length) = some c := by
      unfold rd
      have e : X ++ (G ++ c :: seg) ++ Y = (X ++ G) ++ c :: (seg ++ Y) := by simp
      rw [e, show X.length + G.length = (X ++ G).length by simp]; simp
    rw [this]
    simp only [Option.bind_eq_bind, Option.bind_some]
    rw [wr_front]
    simp only [Option.bind_some]
    have e2 : X.length + G.length + 1 = (X ++ [conv sep c]).length + ((G ++ [c]).drop 1).length := by simp; omega
    have e3 : X.length + G.length + (c :: seg).length
        = (X ++ [conv sep c]).length + ((G ++ [c]).drop 1).length + seg.length := by simp; omega
    have := ih (X ++ [conv sep c]) ((G ++ [c]).drop 1)
    rw [← e3, ← e2, show (X ++ [conv sep c]).length = X.length + 1 by simp] at this
    unfold conv at this ⊢
    rw [this]
    have e6 : (G ++ [c]).drop 1 ++ seg = (G ++ c :: seg).drop 1 := by cases G <;> simp
    rw [e6]
    simp [Nat.add_comm, Nat.add_left_comm]

end Clink.Path
