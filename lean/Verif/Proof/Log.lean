import Verif.Spec.Log

/-! Lemmas for C69. -/

namespace Clink.Log

open Spec (wanted errorLines signed)

theorem codeOf_eq (e : Nat) : codeOf e = .signed (signed e) := by
  unfold codeOf signed
  rw [if_pos (.inl (Nat.zero_le e))]

/-- In no group, with nothing deferred. -/
def idle (out : List Msg) : State := { grouping := 0, deferred := [], canDefer := false, out := out }

/-- In `g + 1` groups. -/
def inside (g : Nat) (d out : List Msg) : State := { grouping := g + 1, deferred := d, canDefer := false, out := out }

theorem info_idle (out : List Msg) (m : Msg) : info (idle out) m = idle (out ++ [m]) := rfl

theorem emit_idle (out : List Msg) (m : Msg) : emit (idle out) m = idle (out ++ [m]) := rfl

theorem emitDeferred_inside (g : Nat) (d out : List Msg) : emitDeferred (inside g d out) = inside g d out := by
  unfold emitDeferred
  have hC : ¬ ((inside g d out).grouping ≤ 0 ∧ (inside g d out).deferred ≠ []) := by
    simp only [inside]; omega
  simp only [if_neg hC]
  rfl

theorem emit_inside (g : Nat) (d out : List Msg) (m : Msg) : emit (inside g d out) m = inside g (d ++ [m]) out := by
  unfold emit
  have hC : ¬ (inside g d out).grouping ≤ 0 := by simp only [inside]; omega
  rw [if_neg hC]; rfl

theorem info_inside (g : Nat) (d out : List Msg) (m : Msg) : info (inside g d out) m = inside g (d ++ [m]) out := by
  unfold info
  rw [emitDeferred_inside, emit_inside]

theorem error_idle (num : Code → Text) (out : List Msg) (m : Msg) (e : Nat) (d : Option Text) :
    error num (idle out) m e d = idle (out ++ errorLines num m (.signed (signed e)) d) := by
  unfold error errorLines
  rw [codeOf_eq]
  have h : emitDeferred (idle out) = idle out := rfl
  simp only []
  rw [h, info_idle, emit_idle]
  cases d with
  | none => simp
  | some t => simp only []; rw [info_idle]; simp

theorem error_inside (num : Code → Text) (g : Nat) (df out : List Msg) (m : Msg) (e : Nat) (d : Option Text) :
    error num (inside g df out) m e d = inside g (df ++ errorLines num m (.signed (signed e)) d) out := by
  unfold error errorLines
  simp only []
  rw [codeOf_eq, emitDeferred_inside, info_inside, emit_inside]
  cases d with
  | none => simp
  | some t => simp only []; rw [info_inside]; simp

theorem end_idle (d out : List Msg) (discard : Bool) :
    endGroup (inside 0 d out) 0 discard = idle (out ++ if discard then [] else d) := by
  cases discard <;> simp [endGroup, inside, idle]

theorem end_inside (g : Nat) (d d' out : List Msg) (discard : Bool) :
    endGroup (inside (g + 1) (d ++ d') out) d.length discard = inside g (if discard then d else d ++ d') out := by
  have h : ((g + 1 : Nat) : Int) + 1 - 1 = (g : Int) + 1 := by omega
  have hC : ¬ ((g : Int) + 1 ≤ 0) := by omega
  cases discard <;> simp [endGroup, inside, h, hC]

theorem open_idle (out : List Msg) : Group.open (idle out) false = (inside 0 [] out, ⟨true, 0⟩) := rfl

theorem open_inside (g : Nat) (d out : List Msg) : Group.open (inside g d out) false = (inside (g + 1) d out, ⟨true, d.length⟩) := by
  simp [Group.open, beginGroup, inside]

theorem run_inside (num : Code → Text) (p : Prog) (g : Nat) (d out : List Msg) :
    run num p (inside g d out) = inside g (d ++ wanted num p) out := by
  induction p generalizing g d out with
  | done => simp [run, wanted]
  | log m p ih => rw [run, info_inside, ih, wanted]; simp
  | err m e dt p ih => rw [run, error_inside, ih, wanted]; simp
  | defer m p ih =>
    have : deferInfo (inside g d out) m = info (inside g d out) m := rfl
    rw [run, this, info_inside, ih, wanted]; simp
  | group v b dis p ihb ihp =>
    rw [run, wanted]
    cases v with
    | true =>
      have : Group.open (inside g d out) true = (inside g d out, ⟨false, 0⟩) := rfl
      rw [this]
      simp only [Group.close, Bool.not_false, if_true]
      rw [ihb, ihp]; simp
    | false =>
      rw [open_inside]
      simp only [Group.close, Bool.not_true, Bool.false_eq_true, if_false, Bool.not_false, if_true]
      rw [ihb, end_inside, ihp]
      cases dis <;> simp

theorem run_idle (num : Code → Text) (p : Prog) (out : List Msg) : run num p (idle out) = idle (out ++ wanted num p) := by
  induction p generalizing out with
  | done => simp [run, wanted]
  | log m p ih => rw [run, info_idle, ih, wanted]; simp
  | err m e dt p ih => rw [run, error_idle, ih, wanted]; simp
  | defer m p ih =>
    have : deferInfo (idle out) m = info (idle out) m := rfl
    rw [run, this, info_idle, ih, wanted]; simp
  | group v b dis p ihb ihp =>
    rw [run, wanted]
    cases v with
    | true =>
      have : Group.open (idle out) true = (idle out, ⟨false, 0⟩) := rfl
      rw [this]
      simp only [Group.close, Bool.not_false, if_true]
      rw [ihb, ihp]; simp
    | false =>
      rw [open_idle]
      simp only [Group.close, Bool.not_true, Bool.false_eq_true, if_false, Bool.not_false, if_true]
      rw [run_inside, end_idle, ihp]
      cases dis <;> simp

/-- Before anything but deferred messages. -/
def fresh (d out : List Msg) : State := { grouping := 0, deferred := d, canDefer := true, out := out }

theorem emitDeferred_fresh (d out : List Msg) : emitDeferred (fresh d out) = idle (out ++ d) := by
  cases d <;> simp [emitDeferred, fresh, idle]

theorem run_fresh (num : Code → Text) (p : Prog) (h : Spec.Started p) (d out : List Msg) :
    run num p (fresh d out) = idle (out ++ d ++ wanted num p) := by
  induction h generalizing d with
  | log m p =>
    rw [run, info, emitDeferred_fresh, emit_idle, run_idle, wanted]; simp
  | err m e dt p =>
    have : error num (fresh d out) m e dt = error num (idle (out ++ d)) m e dt := by
      unfold error
      rw [emitDeferred_fresh]; rfl
    rw [run, this, error_idle, run_idle, wanted]; simp
  | defer m p h ih =>
    have : deferInfo (fresh d out) m = fresh (d ++ [m]) out := rfl
    rw [run, this, ih, wanted]; simp

end Clink.Log
