import Verif.Model.Utf
/-
The code point iterator `str_iter_impl<T>` as an abstract object, so that the algorithms
written against it (comparison, wildcard matching, …) are modelled once for `char` and
`wchar_t`.  Sources: clink/core/include/core/str_iter.h, clink/core/src/str_iter.cpp.
-/
namespace Clink

/-- `str_iter_impl<T>`: `next` returns the code point (0 = none) and the rest.  The two
instances below are the models of `next()` for `char` and `wchar_t`. -/
structure Iter where
  next : List Nat → Nat × List Nat
  dec : ∀ l, (next l).1 ≠ 0 → (next l).2.length < l.length
  suffix : ∀ l, (next l).2 <:+ l

/-- `str_iter_impl<T>::peek()`, core/include/core/str_iter.h:84-90. -/
def Iter.peek (it : Iter) (l : List Nat) : Nat := (it.next l).1
/-- `str_iter_impl<T>::next()` used for its effect. -/
def Iter.adv (it : Iter) (l : List Nat) : List Nat := (it.next l).2

theorem Iter.adv_lt (it : Iter) {l : List Nat} (h : it.peek l ≠ 0) : (it.adv l).length < l.length := it.dec l h

end Clink

namespace Clink.Utf

theorem next8Loop_suffix (ax el : Nat) (l : List Nat) : (next8Loop ax el l).2 <:+ l := by
  fun_induction next8Loop ax el l
  · simp
  · simp
  · rename_i ih; exact ih.trans (List.suffix_cons _ _)
  · exact List.suffix_cons _ _
  · rename_i ih; exact ih.trans (List.suffix_cons _ _)

theorem next16_suffix' (l : List Nat) : (next16 l).2 <:+ l := by
  unfold next16
  split
  · simp
  · split
    · simp
    · split
      · split
        · simp
        · split
          · exact List.suffix_cons _ _
          · exact (List.suffix_cons _ _).trans (List.suffix_cons _ _)
      · split <;> exact List.suffix_cons _ _

/-- `str_iter_impl<char>`. -/
def iter8 : Iter where
  next := next8
  dec := by
    intro l h
    apply next8_shorter
    cases l with
    | nil => simp [next8, next8Loop] at h
    | cons c r =>
      by_cases hc : c = 0
      · subst hc; simp [next8, next8Loop] at h
      · simp [more, hc]
  suffix := fun l => next8Loop_suffix 0 0 l

/-- `str_iter_impl<wchar_t>`. -/
def iter16 : Iter where
  next := next16
  dec := by
    intro l h
    apply next16_shorter
    cases l with
    | nil => simp [next16] at h
    | cons c r =>
      by_cases hc : c = 0
      · subst hc; simp [next16] at h
      · simp [more, hc]
  suffix := next16_suffix'

end Clink.Utf
