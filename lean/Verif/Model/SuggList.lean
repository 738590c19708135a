/-!
Model of the suggestion list: selection, scrolling and the number of rows.
Source: clink/lib/src/suggestionlist_impl.cpp.

The index -1 is the input line.  Integers are unbounded.  Simplified: after a change the list is always drawn if it has rows
(`update_needed` in `update_display` is true).  Each event has the number of rows that are free below the input line when it
has been handled.  After `remove` the code also clears `m_ignore_scroll_offset`; here that is left to the next key.  Not modelled: what is drawn, clicks on the scroll bar, dragging, and turning the list on and off.
-/

namespace Clink.SuggList

/-- `_rl_menu_complete_wraparound` and `clink.scroll_offset`. -/
structure Cfg where
  wrap : Bool
  ofs : Int

/-- `m_index`, `m_top`, `m_count`, `m_visible_rows`, `m_max_rows` and `m_ignore_scroll_offset`. -/
structure S where
  index : Int := -1
  top : Int := 0
  count : Int
  vis : Int
  maxRows : Int
  ignore : Bool := false
  deriving DecidableEq, Repr

/-- `update_layout`, lib/src/suggestionlist_impl.cpp:732-780.  `avail` is `available_rows`. -/
def layout (avail : Int) (s : S) : S :=
  let v := min 10 s.count
  let v := if v > avail ∧ avail < 3 then 0 else v
  let v := min v avail
  let v := if s.maxRows ≠ 0 then min v s.maxRows else v
  { s with vis := v, maxRows := v }

/-- `get_scroll_offset`, lib/src/suggestionlist_impl.cpp:1360-1366. -/
def scrollOfs (c : Cfg) (s : S) : Int := if c.ofs ≤ 0 then 0 else min c.ofs (max 0 ((s.vis - 1) / 2))

/-- The first part of `update_top`, lib/src/suggestionlist_impl.cpp:787-798. -/
def reveal (s : S) : S :=
  if s.top > s.index then { s with top := max 0 s.index }
  else
    let top := max 0 (s.index - (min s.count s.vis - 1))
    if s.top < top then { s with top := top } else s

/-- `update_top`, lib/src/suggestionlist_impl.cpp:783-816, with `m_displayed_rows` as set by `update_display`. -/
def updateTop (c : Cfg) (s : S) : S :=
  let s := reveal s
  if s.ignore then s
  else
    let o := scrollOfs c s
    if o > 0 then
      let last := max 0 (s.count - s.vis)
      let low := min last (s.index + o - min s.vis s.count + 1)
      if s.top > max 0 (s.index - o) then { s with top := max 0 (s.index - o) }
      else if s.top < low then { s with top := low }
      else s
    else s

/-- `update_display`, lib/src/suggestionlist_impl.cpp:819-917.  `draws` says whether there is something on the screen to be erased
if there are no rows. -/
def display (c : Cfg) (draws : Bool) (s : S) : S :=
  if s.vis ≤ 0 ∧ draws = false then s
  else if s.count > 0 then updateTop c s
  else s

/-- What can happen. -/
inductive Ev
  | up | down | pgup | pgdn
  | wheelUp (n : Nat) | wheelDown (n : Nat)
  | click (row : Nat)
  /-- The terminal is resized or the input line has another height. -/
  | resize
  /-- Other suggestions. -/
  | fresh (count : Nat)
  /-- The selected suggestion is removed from the history, so that `count` are left. -/
  | remove (count : Nat)
  deriving DecidableEq, Repr

/-- `apply_suggestion` draws the input line and the list; then `update_display`. -/
def navigated (c : Cfg) (avail : Int) (draws : Bool) (s : S) : S := display c draws (layout avail s)

/-- PgUp, lib/src/suggestionlist_impl.cpp:464-477. -/
def pgUp (c : Cfg) (s : S) : Int :=
  let o := scrollOfs c s
  let rows := min s.count s.vis - o
  max 0 (if s.index ≤ s.top + o then s.index - rows else s.top + o)

/-- PgDn, lib/src/suggestionlist_impl.cpp:464-471 and 481-491; the new index is never above the last. -/
def pgDn (c : Cfg) (s : S) : Int :=
  let rows := min s.count s.vis - scrollOfs c s
  let bottom := s.top + rows - 1
  min (s.count - 1) (if s.index = bottom then s.index + rows else bottom)

/-- `min<uint32>(y, n)`, for a small `n`. -/
def uMin (y : Int) (n : Nat) : Int := min (y % 4294967296) n

/-- `on_input`, lib/src/suggestionlist_impl.cpp:410-639, `on_terminal_resize`, lib/src/suggestionlist_impl.cpp:646-657,
`init_suggestions`, lib/src/suggestionlist_impl.cpp:706-729, and `remove_history_index`, lib/src/suggestionlist_impl.cpp:1431-1456. -/
def step (c : Cfg) (avail : Int) (draws : Bool) (s : S) : Ev → S
  | .resize => navigated c avail draws { s with ignore := false }
  | .fresh n =>
    if s.index ≥ 0 then navigated c avail draws s
    else navigated c avail draws { s with index := -1, count := n, ignore := false, maxRows := 0 }
  | .remove n =>
    if s.index < 0 then s
    else navigated c avail draws { s with count := n, index := if s.index ≥ n then (n : Int) - 1 else s.index }
  | e =>
    if s.vis ≤ 0 then s
    else
      let s := { s with ignore := false }
      match e with
      | .up =>
        let i := if c.wrap then (if s.index - 1 < -1 then s.count - 1 else s.index - 1) else if s.index ≥ 0 then s.index - 1 else s.index
        navigated c avail draws { s with index := i }
      | .down =>
        let i := if s.index + 1 ≥ s.count then (if c.wrap then -1 else s.count - 1) else s.index + 1
        navigated c avail draws { s with index := i }
      | .pgup => if s.index > 0 then navigated c avail draws { s with index := pgUp c s } else s
      | .pgdn => if 0 ≤ s.index ∧ s.index < s.count - 1 then navigated c avail draws { s with index := pgDn c s } else s
      | .wheelUp n =>
        let i := s.index - uMin s.index n
        if i ≠ s.index then navigated c avail draws { s with index := i } else s
      | .wheelDown n =>
        let i := s.index + uMin (s.count - 1 - s.index) n
        if i ≠ s.index then navigated c avail draws { s with index := i } else s
      | .click row =>
        if (row : Int) < min s.vis s.count then
          let i := row + s.top
          if i ≥ s.count then navigated c avail draws { s with ignore := true, index := s.count - 1, top := max s.top (s.count - (min s.vis s.count - 1)) }
          else navigated c avail draws { s with ignore := true, index := i }
        else s
      | _ => s

end Clink.SuggList
