/-
Scrolling the console (`ScrollConsoleRelative`, clink/terminal/src/scroll.cpp, and `console.scroll`, clink/lua/src/console_api.cpp).

Fields of 16 bits are kept within 16 bits by `short`.  `none` is undefined behaviour (overflow of a product).  Whether
`SetConsoleWindowInfo` succeeds for a window is a parameter; if it does, the window has the top and the bottom that it was given.
-/
namespace Clink.Scroll

/-- The window (`srWindow.Top`, `srWindow.Bottom`), the lines of the buffer (`dwSize.Y`) and the last line that may be shown
(`calc_max_y_scroll_pos`, lib/src/display_readline.cpp:3463-3466). -/
structure Screen where
  top : Int
  bottom : Int
  size : Int
  last : Int
deriving Repr, DecidableEq

inductive Mode where
  | byLine
  | byPage
  | toEnd
  | absolute
deriving Repr, DecidableEq

/-- A conversion to 16 bits. -/
def short (n : Int) : Int := (n + 32768) % 65536 - 32768

/-- The window that is asked for (terminal/src/scroll.cpp:84-108). -/
def wanted (s : Screen) (direction : Int) : Mode → Option (Int × Int)
  | .absolute =>
    let t := short (if direction ≤ 1 then 0 else direction)
    some (t, short (t + short (s.bottom - s.top)))
  | .toEnd => if direction ≤ 0 then some (-1, -1) else some (s.top, s.size)
  | .byLine => some (short (s.top + short direction), short (s.bottom + short direction))
  | .byPage =>
    let d := direction * (s.bottom - s.top)
    if d < -2147483648 ∨ d > 2147483647 then none else some (short (s.top + short d), short (s.bottom + short d))

/-- The window within its bounds (terminal/src/scroll.cpp:110-120). -/
def bounded (s : Screen) (w : Int × Int) : Int × Int :=
  let cy := short (s.bottom - s.top)
  let w1 := if w.2 ≥ s.last then (short (s.last - cy), s.last) else w
  if w1.1 < 0 then (0, short (0 + cy)) else w1

/-- `ScrollConsoleRelative` (terminal/src/scroll.cpp:74-132): the screen and the result. -/
def scroll (setOk : Int × Int → Bool) (s : Screen) (direction : Int) (m : Mode) : Option (Screen × Int) :=
  match wanted s direction m with
  | none => none
  | some w =>
    let b := bounded s w
    if b.1 = s.top ∨ setOk b = false then some (s, 0) else some ({ s with top := b.1, bottom := b.2 }, b.1 - s.top)

/-- `console.scroll` (lua/src/console_api.cpp:133-157), for the mode and an amount of 32 bits. -/
def scrollLua (setOk : Int × Int → Bool) (s : Screen) (m : Mode) (amount : Int) : Option (Screen × Int) :=
  match m with
  | .absolute => if amount = -2147483648 then none else scroll setOk s (amount - 1) .absolute
  | m => scroll setOk s amount m

end Clink.Scroll
