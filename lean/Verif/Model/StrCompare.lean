import Verif.Model.Iter
import Verif.Model.AccentTable
/-
Model of string comparison: clink/core/include/core/str_compare.h and
clink/core/src/str_compare.cpp (`normalize_accent`).

The Windows function `CharLowerW` on one character is a parameter `lower`.
-/
namespace Clink.StrCompare
open Clink

/-- `path::is_separator(c)`, core/src/path.cpp:254-261 (Windows). -/
def isSep (c : Nat) : Bool := c == 47 || c == 92

/-- The binary search of `normalize_accent`, core/src/str_compare.cpp:380-396. -/
def bsearch (c : Nat) (lo hi : Nat) : Nat :=
  if h : lo < hi then
    let mid := (lo + hi) / 2
    let e := accentTable.getD mid (0, 0)
    if c = e.1 then e.2
    else if c < e.1 then bsearch c lo mid
    else bsearch c (mid + 1) hi
  else c
termination_by hi - lo
decreasing_by all_goals omega

/-- `normalize_accent(c)`, core/src/str_compare.cpp:43-397. -/
def normalizeAccent (c : Nat) : Nat := bsearch c 0 accentTable.size

/-- Template parameters `MODE` (0 exact, 1 caseless, 2 relaxed), `fuzzy_accents`,
`exact_slash`, core/include/core/str_compare.h:46. -/
structure Mode where
  mode : Nat
  fuzzy : Bool
  exactSlash : Bool
deriving Repr, DecidableEq

/-- The folding applied to one character before comparison,
core/include/core/str_compare.h:58-74. -/
def fold (lower : Nat → Nat) (m : Mode) (c : Nat) : Nat :=
  let c := if m.mode > 0 then (if c > 0xffff then c else lower c) else c
  let c := if m.mode > 1 then (if c = 45 then 95 else c) else c
  if m.exactSlash then c else if c = 92 then 47 else c

/-- The test at core/include/core/str_compare.h:76-84 on folded characters. -/
def same (m : Mode) (c d : Nat) : Bool :=
  if c = d then true
  else if m.fuzzy then normalizeAccent c == normalizeAccent d
  else false

/-- `while (path::is_separator(it.peek())) it.next();`, core/include/core/str_compare.h:93-96. -/
def skipSep (it : Iter) (l : List Nat) : List Nat :=
  if h : isSep (it.peek l) = true then
    have : (it.adv l).length < l.length := it.adv_lt (by intro e; rw [e] at h; simp [isSep] at h)
    skipSep it (it.adv l)
  else l
termination_by l.length

theorem skipSep_le (it : Iter) (l : List Nat) : (skipSep it l).length ≤ l.length := by
  fun_induction skipSep it l
  · omega
  · exact Nat.le_refl _

/-- The loop of `str_compare_impl`, core/include/core/str_compare.h:51-98: the two
iterators when it ends.  After a match `c` is unchanged if `c == d`; otherwise it is the
accent-normalised value (lines 80-81), which decides about the separator skip at line 91. -/
def loop (lower : Nat → Nat) (it : Iter) (m : Mode) (l r : List Nat) : List Nat × List Nat :=
  if h : it.peek l ≠ 0 ∧ it.peek r ≠ 0 then
    let c := fold lower m (it.peek l)
    let d := fold lower m (it.peek r)
    if same m c d then
      let c' := if c = d then c else normalizeAccent c
      have := it.adv_lt h.1
      have := skipSep_le it (it.adv l)
      if c' = 47 then loop lower it m (skipSep it (it.adv l)) (skipSep it (it.adv r))
      else loop lower it m (it.adv l) (it.adv r)
    else (l, r)
  else (l, r)
termination_by l.length

/-- `str_compare_impl`, core/include/core/str_compare.h:46-104: result and the iterators
(which are passed by reference and observable for the caller). -/
def strCompare (lower : Nat → Nat) (it : Iter) (m : Mode) (lcd : Bool) (l r : List Nat) :
    Int × List Nat × List Nat :=
  let e := loop lower it m l r
  if lcd || Utf.more e.1 || Utf.more e.2 then ((l.length - e.1.length : Nat), e) else (-1, e)

/-- `str_compare_scope` constructor, core/src/str_compare.cpp:11-21: the mode in effect. -/
def scopeMode (mode : Int) : Nat := if mode < 0 ∨ mode ≥ 3 then 0 else mode.toNat

end Clink.StrCompare
