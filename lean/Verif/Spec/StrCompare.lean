import Verif.Model.StrCompare
/- Specification vocabulary for C29. -/
namespace Clink

/-- `l` starts with the code points `cs` (none of them 0) and continues with `suf`. -/
inductive Steps (it : Iter) : List Nat → List Nat → List Nat → Prop where
  | nil (l) : Steps it l [] l
  | cons {l l' suf c cs} (h : it.next l = (c, l')) (hc : c ≠ 0) (hs : Steps it l' cs suf) :
      Steps it l (c :: cs) suf

/-- The code points of `l` are exactly `cs`; iteration stops at `suf`. -/
def Text (it : Iter) (l cs suf : List Nat) : Prop := Steps it l cs suf ∧ it.peek suf = 0

end Clink

namespace Clink.StrCompare

/-- Looking an accented letter up in the table, first match. -/
def unaccent (c : Nat) : Nat :=
  match accentTable.toList.find? (fun e => e.1 == c) with
  | some e => e.2
  | none => c

/-- The class a character belongs to when comparing. -/
def canon (lower : Nat → Nat) (m : Mode) (c : Nat) : Nat :=
  let c := if m.mode ≥ 1 ∧ c ≤ 0xffff then lower c else c
  let c := if m.mode ≥ 2 ∧ c = 45 then 95 else c
  let c := if m.exactSlash = false ∧ c = 92 then 47 else c
  if m.fuzzy then unaccent c else c

/-- Longest common prefix. -/
def lcp : List Nat → List Nat → List Nat
  | a :: as, b :: bs => if a = b then a :: lcp as bs else []
  | _, _ => []

/-- What is being compared: classes, where separators right after a '/' do not count. -/
def key (lower : Nat → Nat) (m : Mode) : List Nat → List Nat
  | [] => []
  | c :: cs =>
    canon lower m c :: (if canon lower m c = 47 then key lower m (cs.dropWhile isSep) else key lower m cs)
termination_by l => l.length
decreasing_by
  · exact Nat.lt_succ_of_le (List.dropWhile_suffix _).length_le
  · simp

/-- Replace each run of '/' by a single one. -/
def collapse : List Nat → List Nat
  | [] => []
  | [a] => [a]
  | a :: b :: l => if a = 47 ∧ b = 47 then collapse (b :: l) else a :: collapse (b :: l)

/-- What is assumed of `CharLowerW`: separators are not letters. -/
structure LowerOk (lower : Nat → Nat) : Prop where
  slash : ∀ c, lower c = 47 ↔ c = 47
  back : ∀ c, lower c = 92 ↔ c = 92

end Clink.StrCompare
