import Verif.Model.Str
/- Specification for C05: a string is a text with a capacity.  No memory, no cached
length, no pointers. -/
namespace Clink.Str

/-- Abstract string. -/
structure SStr where
  text : List Nat
  cap : Nat
  growable : Bool
deriving Repr, DecidableEq

/-- Capacity after asking for room for `need` units plus a terminator: unchanged if it is
already enough or the string cannot grow; otherwise the next multiple of 64, provided that
is still a 16-bit number. -/
def growTo (cap : Nat) (growable : Bool) (need : Nat) : Nat :=
  if need + 1 ≤ cap then cap
  else if growable ∧ (need + 1 + 63) / 64 * 64 < 65536 then (need + 1 + 63) / 64 * 64
  else cap

/-- Capacity after an exact reservation. -/
def growExact (cap : Nat) (growable : Bool) (n : Nat) : Nat :=
  if n ≤ cap then cap else if growable ∧ n < 65536 then n else cap

/-- The units of a C string argument before its terminator. -/
def upToNul (src : List Nat) : List Nat := src.takeWhile (· != 0)

/-- Remove trailing blanks/line ends, then leading blanks. -/
def trimmed (t : List Nat) : List Nat :=
  let isTrail := fun c => c == 32 || c == 9 || c == 13 || c == 10
  let isLead := fun c => c == 32 || c == 9
  (t.reverse.dropWhile isTrail).reverse.dropWhile isLead

/-- What each operation does to the abstract string, and what it returns. -/
def specStep (a : SStr) : Op → SStr × Bool
  | .clear => ({ a with text := [] }, true)
  | .truncate p => ({ a with text := a.text.take p }, true)
  | .trim => ({ a with text := trimmed a.text }, true)
  | .concat src n =>
    let n' := n.getD (upToNul src).length
    let cap := growTo a.cap a.growable (a.text.length + n')
    -- append what fits in front of the terminator
    ({ a with text := a.text ++ (upToNul (src.take n')).take (cap - 1 - a.text.length), cap := cap },
      decide (a.text.length + n' < cap))
  | .concatNT src n =>
    if n = 0 then (a, true) else
    let cap := growTo a.cap a.growable (a.text.length + n)
    if a.text.length + n < cap then ({ a with text := a.text ++ src.take n, cap := cap }, true)
    else ({ a with cap := cap }, false)
  | .copy src =>
    let n' := (upToNul src).length
    let cap := growTo a.cap a.growable n'
    ({ a with text := (upToNul src).take (cap - 1), cap := cap }, decide (n' < cap))
  | .data => (a, true)
  | .reserve n e =>
    let cap := if e then growExact a.cap a.growable n else growTo a.cap a.growable n
    ({ a with cap := cap }, decide ((if e then n else n + 1) ≤ cap))

/-- Caller obligations.  Truncating must be to a position inside the text (or beyond the
capacity, which is ignored); source arrays must be readable as far as the function may look;
asking for the raw data of a text with embedded NULs loses it. -/
def OpOk (a : SStr) : Op → Prop
  | .truncate p => p ≤ a.text.length ∨ a.cap ≤ p
  | .concat src n => match n with
    | none => 0 ∈ src
    | some n => n ≤ src.length ∨ 0 ∈ src
  | .concatNT src n => n ≤ src.length
  | .copy src => 0 ∈ src
  | .data => ∀ c ∈ a.text, c ≠ 0
  | _ => True

/-- The concrete string `s` represents the abstract string `a`. -/
structure Rep (s : Str) (a : SStr) : Prop where
  mem : ∃ r, s.mem = a.text ++ 0 :: r
  cap : s.mem.length = a.cap
  cap16 : a.cap < 65536
  grow : s.growable = a.growable
  cache : s.cache = a.text.length ∨ (s.cache = 0 ∧ ∀ c ∈ a.text, c ≠ 0)

end Clink.Str
