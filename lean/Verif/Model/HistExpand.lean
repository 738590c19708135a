/-!
Model of the test that keeps history expansion away from quoted text.
Source: clink/lib/src/history_db.cpp:105-137.

A line is a list of bytes; it ends at NUL or at the end of the list.
-/

namespace Clink.HistExpand

/-- The loop, lib/src/history_db.cpp:121-127: `in_quote` after at most `n` characters. -/
def scan : Nat → List Nat → Nat → Nat
  | n + 1, c :: line, q =>
    if c = 0 then q
    else scan n line (if c = 39 ∨ c = 34 then (if c = q then 0 else c) else q)
  | _, _, q => q

/-- `history_expand_control`, lib/src/history_db.cpp:105-137; `setting` is `history.expand_mode`. -/
def control (setting : Int) (line : List Nat) (pos : Nat) : Bool :=
  if setting ≤ 1 then decide (setting ≤ 0)
  else
    let q := scan pos line 0
    if setting = 2 then q == 39
    else if setting = 3 then q == 34
    else if setting = 4 then q == 34 || q == 39
    else false

end Clink.HistExpand
