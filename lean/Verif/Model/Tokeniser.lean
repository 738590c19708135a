import Verif.Model.Iter

/-! Model of `str_tokeniser_impl<T>` without quotes (clink/core/src/str_tokeniser.cpp, clink/core/include/core/str_tokeniser.h).

The text is the list of units from the iterator to the end.  Without quote pairs `get_right_quote` gives 0, so `quote_close` is
never set. -/

namespace Clink.Tok

/-- First loop of `next_impl`, core/src/str_tokeniser.cpp:96-105. -/
def skip (it : Iter) (delims l : List Nat) : List Nat :=
  if h : it.peek l = 0 then l
  else if it.peek l ∈ delims then skip it delims (it.adv l) else l
termination_by l.length
decreasing_by exact it.adv_lt h

/-- Second loop of `next_impl`, core/src/str_tokeniser.cpp:110-125. -/
def stop (it : Iter) (delims l : List Nat) : List Nat :=
  if h : it.peek l = 0 then l
  else if it.peek l ∈ delims then l else stop it delims (it.adv l)
termination_by l.length
decreasing_by exact it.adv_lt h

/-- `next_impl`, core/src/str_tokeniser.cpp:95-141: the token and where the iterator is then. -/
def next (it : Iter) (delims l : List Nat) : Option (List Nat × List Nat) :=
  let start := skip it delims l
  let e := stop it delims start
  if start.length = e.length then none else some (start.take (start.length - e.length), e)

theorem skip_suffix (it : Iter) (delims l : List Nat) : skip it delims l <:+ l := by
  fun_induction skip it delims l with
  | case1 => exact List.suffix_refl _
  | case2 l h h' ih => exact ih.trans (it.suffix l)
  | case3 => exact List.suffix_refl _

theorem stop_suffix (it : Iter) (delims l : List Nat) : stop it delims l <:+ l := by
  fun_induction stop it delims l with
  | case1 => exact List.suffix_refl _
  | case2 => exact List.suffix_refl _
  | case3 l h h' ih => exact ih.trans (it.suffix l)

theorem next_lt {it : Iter} {delims l w e : List Nat} (h : next it delims l = some (w, e)) : e.length < l.length := by
  unfold next at h
  simp only at h
  split at h
  · cases h
  · rename_i hne
    cases h
    have h1 := (skip_suffix it delims l).length_le
    have h2 := (stop_suffix it delims (skip it delims l)).length_le
    omega

/-- Reading tokens until there is no more. -/
def tokens (it : Iter) (delims l : List Nat) : List (List Nat) :=
  match h : next it delims l with
  | none => []
  | some (w, e) =>
    have := next_lt h
    w :: tokens it delims e
termination_by l.length

end Clink.Tok
