import Mathlib.Data.Rat.Floor
import Mathlib.Data.Rat.Defs
import Mathlib.Algebra.Order.Field.Rat

/-!
Model of the scroll car.
Source: clink/lib/src/scroll_car.cpp, with USE_HALF_CHARS: positions and sizes count half cells.

Integers are unbounded; `none` is an overflow of `int32`.  The rounding of `double` is the parameter `rnd`; integers
of 32 bits are exact.
-/

namespace Clink.ScrollCar

def i32 (x : Int) : Option Int := if -2 ^ 31 ≤ x ∧ x < 2 ^ 31 then some x else none

/-- `calc_scroll_car_size`, lib/src/scroll_car.cpp:39-46, when scroll bars are enabled. -/
def carSize (rows total : Int) : Option Int :=
  if rows ≤ 0 ∨ rows ≥ total then some 0
  else
    (i32 (2 * rows * rows + total / 2)).map fun x => max 2 (min (2 * rows) (x / total))

/-- `calc_scroll_car_offset`, lib/src/scroll_car.cpp:49-64.  The conversion to `int32` cuts off digits behind the
point. -/
def carOffset (rnd : ℚ → ℚ) (top rows total size : Int) : Option Int :=
  if size ≤ 0 then some 0
  else
    let positions := rows * 2 + 1 - size
    if positions ≤ 0 then some 0
    else
      let per := rnd ((total - rows : Int) / (positions : Int))
      if per ≤ 0 then some 0
      else
        let q := rnd (top / per)
        (i32 (if 0 ≤ q then ⌊q⌋ else ⌈q⌉)).map fun x => min (rows * 2 - size) x

/-- `round`, lib/src/scroll_car.cpp:26-26: clears the lowest bit. -/
def round (pos : Int) : Int := pos / 2 * 2

/-- What is drawn in a cell: index 0 to 2 of `c_car_chars`, lib/src/scroll_car.cpp:84-91; `floating` has its own
three characters. -/
inductive Glyph | lower | full | upper
  deriving DecidableEq, Repr

/-- `get_scroll_car_char`, lib/src/scroll_car.cpp:67-120. -/
def carChar (row offset size : Int) : Option Glyph :=
  if size ≤ 0 then none
  else
    let row := row * 2
    let full := size
    let full := if offset ≠ round offset then full + 1 else full
    let full := if offset + size ≠ round (offset + size) then full + 1 else full
    let full := round (full + 1)
    if row ≥ round offset ∧ row < round offset + full then
      if row = round offset ∧ row ≠ offset then some .lower
      else if row = round (offset + size) ∧ row ≠ offset + size then some .upper
      else some .full
    else none

/-- `hittest_scroll_car`, lib/src/scroll_car.cpp:123-129. -/
def hittest (row rows total : Int) : Option Int :=
  if rows ≤ 1 ∨ total ≤ 1 then some 0 else (i32 (row * (total - 1))).map fun x => x.tdiv (rows - 1)

end Clink.ScrollCar
