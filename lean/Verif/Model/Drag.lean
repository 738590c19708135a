/-!
Model of `scroll_helper`, which decides when dragging the mouse beyond the list scrolls it, and how far.
Source: clink/lib/src/scroll_helper.cpp.

`GetTickCount` is the time in milliseconds modulo 2^32.
-/

namespace Clink.Drag

def W : Nat := 4294967296

/-- `GetTickCount` at a time. -/
@[irreducible] def tick (t : Nat) : Nat := t % W

/-- Subtraction of `uint32`. -/
@[irreducible] def sub (a b : Nat) : Nat := (a + W - b) % W

/-- `m_scroll_tick`, `m_accelerate_tick`, `m_can_scroll` and `m_scroll_speed`; `none` is not initialised. -/
structure St where
  scroll : Nat
  accel : Nat
  can : Bool
  speed : Option Nat
  deriving DecidableEq, Repr

/-- `clear`, lib/src/scroll_helper.cpp:15-19. -/
def clear (t : Nat) (s : St) : St := { s with scroll := sub (tick t) 65535, accel := sub (tick t) 65535, can := false }

/-- The speed after some time, lib/src/scroll_helper.cpp:41-42. -/
@[irreducible] def rate (d : Nat) : Nat := if d > 2000 then 10 else if d > 1000 then 3 else 1

/-- The new `m_accelerate_tick`, lib/src/scroll_helper.cpp:38-39. -/
@[irreducible] def accelAt (now : Nat) (s : St) : Nat := if sub now s.scroll > 250 then now else s.accel

/-- The new `m_can_scroll`, lib/src/scroll_helper.cpp:37. -/
@[irreducible] def canAt (now : Nat) (s : St) : Bool := decide (sub now s.scroll > 15)

/-- `on_input`, lib/src/scroll_helper.cpp:34-44, without the result, which is `tick t`. -/
def onInput (t : Nat) (s : St) : St :=
  { scroll := s.scroll, accel := accelAt (tick t) s, can := canAt (tick t) s, speed := some (rate (sub (tick t) (accelAt (tick t) s))) }

/-- `on_scroll`, lib/src/scroll_helper.cpp:47-50. -/
def onScroll (now : Nat) (s : St) : St := { s with scroll := now }

/-- A mouse event at time `t`, lib/src/selectcomplete_impl.cpp:714-816 and lib/src/suggestionlist_impl.cpp:500-572; `scrolled` says whether
it gets to `on_scroll`.  In lib/src/textlist_impl.cpp:1085-1150 there is no call of `on_scroll`. -/
def event (t : Nat) (scrolled : Bool) (s : St) : St := if scrolled then onScroll (tick t) (onInput t s) else onInput t s

end Clink.Drag
