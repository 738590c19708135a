/-! Model of the list of key bindings (`show_key_bindings`, clink/lib/src/rl/rl_help.cpp): the order of the entries, removing duplicates,
arranging the entries in rows, and shortening macros.

`none` is undefined behaviour: reading freed or uninitialised memory, or beyond the array.  Collecting the entries
(`collect_keymap`, `collect_functions`) and printing them are not modelled. -/

namespace Clink.KeyList

/-- `Keyentry`, lib/src/rl/rl_help.cpp:97-107, without what is only printed.  Pointers that may be null are options. -/
structure Entry where
  sort : Int
  name : Option (List Nat)
  macro_ : Option (List Nat)
  func : Option (List Nat)
  cat : Int
deriving Repr, DecidableEq

/-! Order -/

/-- `strcmp`: the sign of the result.  Bytes are compared as unsigned. -/
def strcmp : List Nat → List Nat → Int
  | [], [] => 0
  | [], _ :: _ => -1
  | _ :: _, [] => 1
  | a :: as, b :: bs => if a < b then -1 else if b < a then 1 else strcmp as bs

/-- ASCII lower case, as `strcmpi` in the C locale. -/
def lower (c : Nat) : Nat := if 65 ≤ c ∧ c ≤ 90 then c + 32 else c

def strcmpi (a b : List Nat) : Int := strcmp (a.map lower) (b.map lower)

/-- `(int16)n`. -/
def short (n : Int) : Int := (n + 32768) % 65536 - 32768

/-- `!pointer`. -/
def isNull (p : Option (List Nat)) : Int := if p.isNone then 1 else 0

/-- The text that a pointer points at. -/
def text (p : Option (List Nat)) : List Nat := p.getD []

/-- `p->func_name ? p->func_name : p->macro_text`, lib/src/rl/rl_help.cpp:1082-1083. -/
def binding (e : Entry) : List Nat := text (if e.func.isSome then e.func else e.macro_)

/-- Continuing when a comparison gives 0. -/
def orElse (cmp next : Int) : Int := if cmp ≠ 0 then cmp else next

/-- `cmp_sort_collector`, lib/src/rl/rl_help.cpp:1052-1088.  The last two comparisons are of a text and itself. -/
def cmpSort (a b : Entry) : Int :=
  orElse (a.sort / 65536 - b.sort / 65536) <|
  orElse (short a.sort - short b.sort) <|
  orElse (strcmpi (text a.name) (text b.name)) <|
  orElse (strcmp (text a.name) (text b.name)) <|
  orElse (isNull a.func - isNull b.func) <|
  orElse (strcmpi (binding b) (binding b)) <|
  strcmp (binding b) (binding b)

/-- `cmp_sort_collector_cat`, lib/src/rl/rl_help.cpp:1091-1103. -/
def cmpSortCat (a b : Entry) : Int := orElse (a.cat - b.cat) (cmpSort a b)

/-! Duplicates -/

/-- The variables of the loop, lib/src/rl/rl_help.cpp:1303-1306: the array of `max` slots (none: not initialised), in which entries
are numbered by the place they had; the numbers of the entries whose texts are freed; `tortoise`; and `num`. -/
structure Dedup where
  slots : List (Option (Nat × Entry))
  freed : List Nat
  tortoise : Nat
  num : Nat
deriving Repr, DecidableEq

/-- Reading `key_name` and its text. -/
def readName (d : Dedup) (i : Nat) : Option (List Nat) :=
  match d.slots[i]? with
  | some (some (id, e)) => if id ∈ d.freed then none else some (text e.name)
  | _ => none

/-- `is_keyentry_equivalent`, lib/src/rl/rl_help.cpp:1194-1210, without the assertions. -/
def equivalent (d : Dedup) (a b : Nat) : Option Bool :=
  match readName d a with
  | none => none
  | some [] => some false
  | some na =>
    match readName d b with
    | none => none
    | some [] => some false
    | some nb => some (strcmp na nb = 0)

/-- `free(tortoise->key_name)`, lib/src/rl/rl_help.cpp:1310-1311. -/
def freeTortoise (d : Dedup) : Option Dedup :=
  match d.slots[d.tortoise]? with
  | some (some (id, _)) => if id ∈ d.freed then none else some { d with freed := id :: d.freed }
  | _ => none

/-- `memcpy(tortoise, hare, sizeof(*hare))`, lib/src/rl/rl_help.cpp:1318-1320, for the hare at `h`. -/
def copy (d : Dedup) (h : Nat) : Option Dedup :=
  if d.tortoise = h then some d
  else
    match d.slots[h]? with
    | none => none
    | some s => some { d with slots := d.slots.set d.tortoise s }

/-- The body of the loop, lib/src/rl/rl_help.cpp:1307-1321. -/
def dedupStep (d : Dedup) (i : Nat) : Option Dedup :=
  match equivalent d i (i - 1) with
  | none => none
  | some true => (freeTortoise d).bind fun d => copy d (i + 1)
  | some false => copy { d with tortoise := d.tortoise + 1, num := d.num + 1 } (i + 1)

/-- The loop from `i`, for `n` further entries. -/
def dedupLoop (d : Dedup) (i : Nat) : Nat → Option Dedup
  | 0 => some d
  | n + 1 => (dedupStep d i).bind fun d => dedupLoop d (i + 1) n

/-- The array before: a first slot that is all zero (lib/src/rl/rl_help.cpp:1281), the entries, and `spare` slots more. -/
def initial (es : List Entry) (spare : Nat) : Dedup :=
  ⟨some (0, ⟨0, none, none, none, 0⟩) :: ((es.zipIdx 1).map (fun p => some (p.2, p.1)) ++ List.replicate spare none), [], 1, 1⟩

/-- Removing duplicates, lib/src/rl/rl_help.cpp:1301-1323: the entries from 1 up to `num`. -/
def dedup (es : List Entry) (spare : Nat) : Option (List (Option (Nat × Entry))) :=
  (dedupLoop (initial es spare) 1 es.length).map fun d => (d.slots.take d.num).drop 1

/-! Rows -/

/-- `show_line`, lib/src/rl/rl_help.cpp:1264-1273: nothing, a heading, or `count` entries from `first` at distances `step`. -/
inductive Line
  | blank
  | heading (cat : Int)
  | row (first count step : Nat)
deriving Repr, DecidableEq

/-- The loop over the rows, lib/src/rl/rl_help.cpp:1390-1397, from row `i` for `n` rows more. -/
def rowLoop (vertical : Bool) (columns begin_ step : Nat) (i sub : Nat) : Nat → List Line
  | 0 => []
  | n + 1 => .row (begin_ + if vertical then i else i * columns) (min sub columns) step ::
      rowLoop vertical columns begin_ step (i + 1) (sub - min sub columns) n

/-- `rows`, lib/src/rl/rl_help.cpp:1379. -/
def rowCount (columns sub : Nat) : Nat := (sub + (columns - 1)) / columns

/-- The rows of one category, lib/src/rl/rl_help.cpp:1376-1398. -/
def groupRows (vertical : Bool) (columns begin_ sub : Nat) : List Line :=
  rowLoop vertical columns begin_ (if vertical then rowCount columns sub else 1) 0 sub (rowCount columns sub)

/-- The lines of one category, with the heading. -/
def groupLines (vertical categories : Bool) (columns : Nat) (cat : Int) (lines : List Line) (begin_ sub : Nat) : List Line :=
  if sub = 0 then lines
  else lines ++ (if categories then (if lines = [] then [] else [.blank]) ++ [.heading cat] else []) ++ groupRows vertical columns begin_ sub

/-- The loop over the entries, lib/src/rl/rl_help.cpp:1365-1408, from entry `k`, for the categories of the entries from there. -/
def linesLoop (vertical categories : Bool) (columns : Nat) (lines : List Line) (cat : Int) (begin_ k : Nat) : List Int → List Line
  | [] => if (-2 : Int) ≠ cat then groupLines vertical categories columns cat lines begin_ (k - begin_) else lines
  | c :: cs =>
    let this := if categories then c else -1
    if this ≠ cat then
      linesLoop vertical categories columns (groupLines vertical categories columns cat lines begin_ (k - begin_)) this k (k + 1) cs
    else linesLoop vertical categories columns lines cat begin_ (k + 1) cs

/-- All lines, lib/src/rl/rl_help.cpp:1360-1409. -/
def lines (vertical categories : Bool) (columns : Nat) (cats : List Int) : List Line := linesLoop vertical categories columns [] (-1) 1 1 cats

/-- The entries printed in a line, lib/src/rl/rl_help.cpp:1459-1526. -/
def shown : Line → List Nat
  | .row first count step => (List.range count).map fun j => first + j * step
  | _ => []

/-! Macros -/

/-- The loop of `append_key_macro`, lib/src/rl/rl_help.cpp:1174-1184, over the characters and their widths: the text, `count` and
`truncate_len`.  `limitE` is `limit_ellipsis`; it is not negative. -/
def macroLoop (limit limitE : Nat) (s : List Nat) (count trunc : Nat) : List (List Nat × Nat) → List Nat × Nat × Nat
  | [] => (s, count, trunc)
  | (b, w) :: cs =>
    let trunc := if count ≤ limitE then s.length else trunc
    if count > limit then (s, count, trunc) else macroLoop limit limitE (s ++ b) (count + w) trunc cs

/-- `append_key_macro`, lib/src/rl/rl_help.cpp:1168-1191; `limit` is at least `cells`, the width of the ellipsis. -/
def appendMacro (ellipsis : List Nat) (cells : Nat) (s : List Nat) (chars : List (List Nat × Nat)) (limit : Nat) : List Nat :=
  let r := macroLoop limit (limit - cells) s 0 0 chars
  if r.2.1 > limit then r.1.take r.2.2 ++ ellipsis else r.1

end Clink.KeyList
