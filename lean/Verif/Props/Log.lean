import Verif.Proof.Log

/-! C69: the log has the messages that it should have, in order.

`C69_log` is for a new logger, `C69_more` for one that has begun, `C69_group` for what is seen while a group is open, `C69_quiet` for a logger
that only gets deferred messages. -/

namespace Clink.Log

open Spec (wanted Started OnlyDeferred)

/-- For a new logger: if something else than deferred messages comes before the first group, exactly the wanted messages are in the log,
in order, and nothing is left over. -/
theorem C69_log (num : Code → Text) (p : Prog) (h : Started p) :
    (run num p {}).out = wanted num p ∧ (run num p {}).deferred = [] ∧ (run num p {}).grouping = 0 ∧ (run num p {}).canDefer = false := by
  have := run_fresh num p h [] []
  simp only [List.append_nil, List.nil_append] at this
  have e : fresh [] [] = {} := rfl
  rw [e] at this
  rw [this]
  exact ⟨rfl, rfl, rfl, rfl⟩

/-- After that, whatever is done is added to the log. -/
theorem C69_more (num : Code → Text) (p q : Prog) (h : Started p) :
    (run num q (run num p {})).out = wanted num p ++ wanted num q ∧ (run num q (run num p {})).deferred = [] := by
  have := run_fresh num p h [] []
  simp only [List.append_nil, List.nil_append] at this
  have e : fresh [] [] = {} := rfl
  rw [e] at this
  rw [this, run_idle]
  exact ⟨rfl, rfl⟩

/-- While a group is open nothing is written, whatever is done in it; when it is closed, it is all written at once, or nothing is. -/
theorem C69_group (num : Code → Text) (p body : Prog) (h : Started p) (discard : Bool) :
    let (s, g) := Group.open (run num p {}) false
    (run num body s).out = wanted num p ∧
    (g.close (run num body s) discard).1.out = wanted num p ++ (if discard then [] else wanted num body) ∧
    (g.close (run num body s) discard).1.deferred = [] := by
  have := run_fresh num p h [] []
  simp only [List.append_nil, List.nil_append] at this
  have e : fresh [] [] = {} := rfl
  rw [e] at this
  rw [this, open_idle]
  simp only []
  rw [run_inside]
  refine ⟨rfl, ?_, ?_⟩
  · show (endGroup (inside 0 ([] ++ wanted num body) (wanted num p)) 0 discard).out = _
    rw [List.nil_append, end_idle]; rfl
  · show (endGroup (inside 0 ([] ++ wanted num body) (wanted num p)) 0 discard).deferred = _
    rw [List.nil_append, end_idle]; rfl

/-- Deferred messages alone write nothing. -/
theorem C69_quiet (num : Code → Text) (p : Prog) (h : OnlyDeferred p) : (run num p {}).out = [] := by
  have key : ∀ d, run num p (fresh d []) = fresh (d ++ wanted num p) [] := by
    induction h with
    | done => intro d; simp [run, wanted]
    | defer m p _ ih =>
      intro d
      have : deferInfo (fresh d []) m = fresh (d ++ [m]) [] := rfl
      rw [run, this, ih, wanted]; simp
  have e : fresh [] [] = {} := rfl
  rw [← e, key]; rfl

/-- Numbers of errors are never shown in hexadecimal although there is a format for it: `DWORD` has no sign. -/
theorem C69_hex_violated (e : Nat) : ∀ n, codeOf e ≠ .hex n := by
  intro n
  rw [codeOf_eq]
  simp

/-- A group that comes first (an assertion forbids it) turns the order round: the deferred messages come after those of the group, or never. -/
theorem C69_first_violated (num : Code → Text) (a b c : Msg) :
    (run num (.defer a (.group false (.log b .done) false .done)) {}).out = [b] ∧
    (run num (.defer a (.group false (.log b .done) false (.log c .done))) {}).out = [b, a, c] ∧
    wanted num (.defer a (.group false (.log b .done) false (.log c .done))) = [a, b, c] :=
  ⟨rfl, rfl, rfl⟩

/-! Examples -/

def m (n : Nat) : Msg := ⟨[102], 1, [n]⟩
def num0 : Code → Text
  | .signed n => [n.natAbs % 256]
  | .hex _ => [88]
def ex : Prog :=
  .defer (m 1) (.log (m 2) (.group false (.log (m 3) (.group false (.log (m 4) .done) true (.group false (.log (m 5) .done) false .done))) false
    (.group false (.log (m 6) (.group true (.log (m 7) .done) true .done)) true (.err (m 8) 5 (some [9]) .done))))
example : Started ex := .defer _ _ (.log _ _)
example : (run num0 ex {}).out.map (·.text) = [[1], [2], [3], [5], [5], [8], [9]] := by decide +kernel
example : (wanted num0 ex).map (·.text) = [[1], [2], [3], [5], [5], [8], [9]] := by decide +kernel
-- A verbose group cannot be discarded.
example : (run num0 (.log (m 1) (.group true (.log (m 2) .done) true .done)) {}).out = [m 1, m 2] := by decide +kernel
example : OnlyDeferred (.defer (m 1) .done) := .defer _ _ .done
example : codeOf 2147942405 = .signed (-2147024891) := by decide +kernel
-- Groups that are not nested (core/include/core/log.h:70-71 says that the results are undefined): the order is b, c, a, d.
example :
    let (s, a) := Group.open (info {} (m 0)) false
    let s := info s (m 1)
    let (s, b) := Group.open s false
    let s := info s (m 2)
    let (s, _) := a.close s false
    let s := info s (m 3)
    let (s, _) := b.close s false
    (info s (m 4)).out = [m 0, m 2, m 3, m 1, m 4] := by decide +kernel

end Clink.Log
