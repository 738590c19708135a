/-!
Model of the popup list: selection, scrolling, searching, filtering and deleting.
Source: clink/lib/src/textlist_impl.cpp.

`ι` is the type of an item with its columns; `hit needle x` says whether the needle is found in the item (`strstr_compare` on
the text or on a column, lib/src/textlist_impl.cpp:1952-1957 and 2216-2221) and `start needle x` whether the item starts with
it (`str_compare`, lib/src/textlist_impl.cpp:1948).  `m_entries` and `m_items` are one list.  Integers are unbounded; `none` is
a read outside of an array.  Not modelled: what is drawn, horizontal scrolling, editing of the needle (an event has the whole
new needle), the delayed search (`m_pending_find`).
-/

namespace Clink.TextList

/-- Settings and modes: `_rl_menu_complete_wraparound`, `clink.scroll_offset`, `clink.popup_delete_direction`, `m_reverse`,
`m_win_history`. -/
structure Cfg where
  wrap : Bool
  ofs : Int
  delUp : Bool
  reverse : Bool
  win : Bool

/-- The members of `textlist_impl`, lib/src/textlist_impl.h:92-190, that are used here. -/
structure T (ι : Type) where
  items : List ι
  infos : Option (List Nat) := none
  count : Int
  orig : Int
  index : Int
  top : Int
  vis : Int
  ignore : Bool := false
  filter : Bool := false
  fstr : List Nat := []
  filtered : List Nat := []
  savedIndex : Int := -1
  savedTop : Int := -1
  needle : List Nat := []
  notFound : Bool := false
  deriving DecidableEq, Repr

variable {ι : Type}

/-- `get_scroll_offset`, lib/src/textlist_impl.cpp:1984-1990. -/
def scrollOfs (c : Cfg) (s : T ι) : Int := if c.ofs ≤ 0 then 0 else min c.ofs (max 0 ((s.vis - 1) / 2))

/-- `set_top`, lib/src/textlist_impl.cpp:1993-2003, without the assertions. -/
def setTop (s : T ι) (top : Int) (ignore : Bool) : T ι :=
  if top ≠ s.top then { s with top := top, ignore := ignore } else s

/-- The first half of `update_top`, lib/src/textlist_impl.cpp:1476-1487. -/
def reveal (s : T ι) : T ι :=
  let y := s.index
  if s.top > y then setTop s y false
  else
    let rows := min s.count s.vis
    let top := max 0 (y - max (rows - 1) 0)
    if s.top < top then setTop s top false else s

/-- `update_top`, lib/src/textlist_impl.cpp:1474-1505, without the assertions. -/
def updateTop (c : Cfg) (s : T ι) : T ι :=
  let s := reveal s
  if s.ignore then s
  else
    let ofs := scrollOfs c s
    if ofs > 0 then
      let rows := min s.count s.vis
      let last := max 0 (s.count - rows)
      if s.top > max 0 (s.index - ofs) then setTop s (max 0 (s.index - ofs)) false
      else if s.top < min last (s.index + ofs - rows + 1) then setTop s (max 0 (min last (s.index + ofs - rows + 1))) false
      else s
    else s

/-- `update_display` of an active list, lib/src/textlist_impl.cpp:1582-1604: only the effect on the first visible item. -/
def display (c : Cfg) (s : T ι) : T ι :=
  let active := s.orig ≠ 0 ∧ s.fstr ≠ []
  if (s.vis > 0 ∨ active) ∧ (s.count > 0 ∨ active) then updateTop c s else s

/-- The label `navigated`, lib/src/textlist_impl.cpp:877-888, without the number that is being entered. -/
def navigated (c : Cfg) (s : T ι) : T ι := display c { s with index := max 0 s.index }

/-- `get_original_index`, lib/src/textlist_impl.cpp:2117-2122. -/
def original (s : T ι) (i : Int) : Option Nat :=
  if i < 0 then none else if s.fstr ≠ [] then s.filtered[i.toNat]? else some i.toNat

/-- `get_item_text`, lib/src/textlist_impl.cpp:2125-2130. -/
def itemAt (s : T ι) (i : Int) : Option ι := (original s i).bind (s.items[·]?)

/-- `advance_index`, lib/src/textlist_impl.cpp:821-834. -/
def advance (i dir count : Int) : Int :=
  let i := i + dir
  if dir < 0 then (if i < 0 then count - 1 else i) else (if i ≥ count then 0 else i)

/-- The loop of `do_find`, lib/src/textlist_impl.cpp:1943-1977: `none` when a read is out of bounds, `some none` when nothing
is found. -/
def findLoop (m : Int → Option Bool) (dir count start : Int) : Nat → Int → Option (Option Int)
  | 0, _ => none
  | n + 1, i =>
    match m i with
    | none => none
    | some true => some (some i)
    | some false =>
      let j := advance i dir count
      if j = start then some none else findLoop m dir count start n j

/-- Where the list starts when an item far away is selected, lib/src/textlist_impl.cpp:1963-1964 and 1353-1354. -/
def jump (s : T ι) (i : Int) : T ι :=
  if i < s.top ∨ i ≥ s.top + s.vis then
    { s with index := i, top := max 0 (min (i - s.vis / 2) (s.count - s.vis)) }
  else { s with index := i }

/-- `clear_filter`, lib/src/textlist_impl.cpp:2150-2164. -/
def clearFilter (s : T ι) : T ι :=
  if s.fstr ≠ [] then
    setTop { s with count := s.orig, fstr := [], filtered := [], index := s.savedIndex, ignore := false } s.savedTop false
  else s

/-- The new list of `filter_items`, lib/src/textlist_impl.cpp:2204-2245.  The positions in the list are in bounds
(`C71_visible`). -/
def newFiltered (hit : List Nat → ι → Bool) (s : T ι) : List Nat :=
  let p := fun (i : Nat) => match s.items[i]? with | some x => hit s.needle x | none => false
  if s.fstr ≠ [] ∧ s.fstr <+: s.needle then s.filtered.filter p else (List.range s.items.length).filter p

/-- `filter_items`, lib/src/textlist_impl.cpp:2167-2276.  `intr`: there is input that interrupts it. -/
def filterItems (hit : List Nat → ι → Bool) (c : Cfg) (intr : Bool) (s : T ι) : Bool × T ι :=
  if s.fstr = s.needle then (false, s)
  else if s.needle = [] then (true, clearFilter s)
  else if intr then (false, s)
  else
    let l := newFiltered hit s
    let s1 := if s.fstr = [] then { s with savedIndex := s.index, savedTop := s.top } else s
    let s1 := { s1 with filtered := l, count := (l.length : Int), fstr := s.needle,
                        index := if c.reverse then max 0 ((l.length : Int) - 1) else 0 }
    (true, updateTop c (setTop s1 0 false))

/-- `do_find`, lib/src/textlist_impl.cpp:1909-1981. -/
def doFind (hit start : List Nat → ι → Bool) (c : Cfg) (intr : Bool) (dir : Int) (fromBegin adv : Bool) (s : T ι) :
    Option (Bool × T ι) :=
  if s.notFound then some (false, s)
  else if s.filter ∧ ¬ c.win then some (filterItems hit c intr s)
  else
    let dir := if c.reverse then 0 - dir else dir
    let i := if fromBegin then (if c.reverse then s.count - 1 else 0) else s.index
    let i := if adv then advance i dir s.count else i
    let m := fun i => (itemAt s i).map (if c.win then start s.needle else hit s.needle)
    (findLoop m dir s.count i s.count.toNat i).map fun r =>
      match r with
      | some i => (true, jump s i)
      | none => (false, if ¬ s.filter ∧ ¬ c.win then { s with notFound := true } else s)

/-- `hittest_scroll_car`, lib/src/scroll_car.cpp:123-129. -/
def hittest (row rows total : Int) : Int := if rows ≤ 1 ∨ total ≤ 1 then 0 else row * (total - 1) / (rows - 1)

/-- An `int32` as a `uint32`. -/
def u32 (x : Int) : Int := if x < 0 then x + 2 ^ 32 else x

/-- Input.  `click` and `drag` have the row in the list; `inside` is the test of the column; `bar` is a click on the scroll bar
or a drag that began there.  `del ok`: `ok` says whether the deletion is possible, lib/src/textlist_impl.cpp:967-995.
`needle n back clear`: the needle is now `n`, by Backspace or by typing; with `clear` the old needle was dropped before.
`number i`: the item with the number that was typed is at `i`. -/
inductive Ev
  | up | down | home | fin | pgup | pgdn
  | click (row : Int) (inside dbl : Bool)
  | drag (row : Int) (can : Bool) (speed : Nat)
  | bar (row : Int)
  | wheelUp (n : Nat)
  | wheelDown (n : Nat)
  | find (prev : Bool)
  | copy
  | del (ok : Bool)
  | enter
  | cancel
  | toggle
  | needle (n : List Nat) (back clear : Bool)
  | number (i : Int)
  deriving DecidableEq, Repr

/-- What happens: the new state, what is put into the clipboard, the index that is removed from the history, and the result of
the list when it is closed. -/
structure R (ι : Type) where
  s : T ι
  copied : Option ι := none
  removed : Option Nat := none
  closed : Option (Option (Nat × ι)) := none
  deriving DecidableEq, Repr

/-- `cancel(popup_result::use)` and `cancel(popup_result::select)`, lib/src/textlist_impl.cpp:1418-1435. -/
def use (s : T ι) : Option (R ι) :=
  if 0 ≤ s.index ∧ s.index < s.count then
    (original s s.index).bind fun o => (s.items[o]?).map fun x => { s := s, closed := some (some (o, x)) }
  else some { s := s, closed := some none }

/-- The item is removed from the lists, lib/src/textlist_impl.cpp:998-1017. -/
def erase (s : T ι) (o : Nat) : T ι :=
  { s with
    items := s.items.eraseIdx o
    infos := s.infos.map fun l => (l.eraseIdx o).mapIdx fun i x => if o ≤ i then x - 1 else x
    filtered := if s.filtered ≠ [] then (s.filtered.eraseIdx s.index.toNat).mapIdx fun i x => if s.index.toNat ≤ i then x - 1 else x
                else s.filtered
    count := s.count - 1
    orig := s.orig - 1 }

/-- The new selection and the new first visible item after deleting, lib/src/textlist_impl.cpp:1024-1060. -/
def settle (c : Cfg) (s : T ι) : T ι :=
  let i := if ¬ c.delUp then (if s.index ≥ s.count then s.count - 1 else s.index) else (if s.index > 0 then s.index - 1 else s.index)
  let s := { s with index := i, ignore := false }
  let delta := s.index - s.top
  let delta := if delta ≥ s.vis - 1 then s.vis - 2 else delta
  let delta := if delta ≤ 0 then 1 else delta
  let delta := if delta ≥ s.vis then 0 else delta
  let top := max 0 (s.index - delta)
  let maxTop := max 0 (s.count - s.vis)
  let top := if top > maxTop then maxTop else top
  display c (setTop s top false)

/-- `external_index`, lib/src/textlist_impl.cpp:966. -/
def external (s : T ι) (o : Nat) : Option Nat :=
  match s.infos with
  | some l => l[o]?
  | none => some o

/-- `bind_id_textlist_delete`, lib/src/textlist_impl.cpp:959-1062. -/
def delete (c : Cfg) (ok : Bool) (s : T ι) : Option (R ι) :=
  if s.index < 0 ∨ s.index ≥ s.count then some { s := s }
  else
    (original s s.index).bind fun o =>
      (external s o).bind fun ext =>
        if ¬ ok then some { s := s }
        else
          let s := erase s o
          if s.orig = 0 then some { s := s, removed := some ext, closed := some none }
          else some { s := settle c s, removed := some ext }

/-- PgUp, lib/src/textlist_impl.cpp:905-919. -/
def pgup (c : Cfg) (s : T ι) : T ι :=
  let y := s.index
  let rows := min s.count s.vis
  let ofs := scrollOfs c s
  let srows := rows - ofs
  if y > 0 then
    let newY := max 0 (if y ≤ s.top + ofs then y - srows else s.top + ofs)
    navigated c { s with index := s.index + (newY - y) }
  else s

/-- PgDn, lib/src/textlist_impl.cpp:905-910 and 920-934. -/
def pgdn (c : Cfg) (s : T ι) : T ι :=
  let y := s.index
  let rows := min s.count s.vis
  let ofs := scrollOfs c s
  let srows := rows - ofs
  if y < s.count - 1 then
    let bottom := s.top + srows - 1
    let newY := min (s.count - 1) (if y = bottom then y + srows else bottom)
    let s := { s with index := s.index + (newY - y) }
    let s := if s.index > s.count - 1 then { setTop s (max 0 (s.count - s.vis)) false with index := s.count - 1 } else s
    navigated c s
  else s

/-- A click on the scroll bar, lib/src/textlist_impl.cpp:1101-1107. -/
def bar (c : Cfg) (row : Int) (s : T ι) : T ι :=
  let rows := min s.count s.vis
  let row := min (max row 0) (rows - 1)
  let i := hittest row rows s.count
  let s := { s with index := i }
  navigated c (setTop s (min (max (i - (rows - 1) / 2) 0) (s.count - rows)) false)

/-- A drag outside of the rows, lib/src/textlist_impl.cpp:1133-1155. -/
def dragOut (c : Cfg) (row : Int) (speed : Nat) (s : T ι) : T ι :=
  let rows := min s.count s.vis
  if row < 0 then
    if s.top > 0 then
      let s := setTop s (max 0 (s.top - speed)) true
      navigated c { s with index := s.top }
    else s
  else if s.top + rows < s.count then
    let s := setTop s (min (s.count - rows) (s.top + speed)) true
    navigated c { s with index := s.top + rows - 1 }
  else s

/-- After `do_find` at the label `find`, lib/src/textlist_impl.cpp:944-949. -/
def found (c : Cfg) (need : Bool) (r : Bool × T ι) : T ι := if r.1 ∨ need then display c r.2 else r.2

/-- The label `update_needle`, lib/src/textlist_impl.cpp:1287-1316 and 1365-1372. -/
def search (hit start : List Nat → ι → Bool) (c : Cfg) (intr : Bool) (fromBegin : Bool) (s : T ι) : Option (T ι) :=
  if ¬ c.win then
    if s.notFound then some (display c s)
    else (doFind hit start c intr 1 fromBegin false s).map (found c true)
  else if s.needle ≠ [] then (doFind hit start c intr 1 fromBegin true s).map (found c true)
  else some (display c s)

/-- `on_input`, lib/src/textlist_impl.cpp:842-1382. -/
def step (hit start : List Nat → ι → Bool) (c : Cfg) (intr : Bool) (e : Ev) (s0 : T ι) : Option (R ι) :=
  if s0.vis ≤ 0 then some { s := s0, closed := some none }
  else
    let s := { s0 with ignore := false }
    let rows := min s.count s.vis
    match e with
    | .up =>
      let i := s.index - 1
      some { s := navigated c { s with index := if i < 0 then (if c.wrap then s.count - 1 else 0) else i } }
    | .down =>
      let i := s.index + 1
      some { s := navigated c { s with index := if i ≥ s.count then (if c.wrap then 0 else s.count - 1) else i } }
    | .home => some { s := navigated c { s with index := 0 } }
    | .fin => some { s := navigated c { s with index := s.count - 1 } }
    | .pgup => some { s := pgup c s }
    | .pgdn => some { s := pgdn c s }
    | .find prev =>
      if c.win then some { s := s }
      else (doFind hit start c intr (if prev then -1 else 1) false true s).map fun r => { s := found c false r }
    | .copy => if s.index < 0 then none else (s.items[s.index.toNat]?).map fun x => { s := s, copied := some x }
    | .del ok => delete c ok s
    | .cancel => some { s := s, closed := some none }
    | .enter => if s.index < 0 ∨ s.index ≥ s.count then some { s := s } else use s
    | .click row inside dbl =>
      if row < -1 ∨ row ≥ rows + 1 then some { s := s, closed := some none }
      else if ¬ inside then some { s := s }
      else if 0 ≤ row ∧ row < rows then
        let s := { s with index := row + s.top, ignore := true }
        if dbl then use (display c s) else some { s := navigated c s }
      else some { s := s }
    | .drag row can speed =>
      if 0 ≤ row ∧ row < rows then some { s := navigated c { s with index := row + s.top, ignore := true } }
      else if can then some { s := dragOut c row speed s }
      else some { s := s }
    | .bar row => some { s := bar c row s }
    | .wheelUp n => some { s := navigated c { s with index := s.index - min (u32 s.index) n } }
    | .wheelDown n => some { s := navigated c { s with index := s.index + min (u32 (s.count - 1 - s.index)) n } }
    | .toggle =>
      if c.win then some { s := s }
      else
        let s := if s.filter then clearFilter s else s
        (search hit start c intr false { s with filter := ! s.filter }).map fun s => { s := s }
    | .needle n back clear =>
      let s := { s with needle := n, notFound := if back ∨ clear then false else s.notFound }
      (search hit start c intr (back && ! c.win) s).map fun s => { s := s }
    | .number i =>
      if 0 ≤ i ∧ i < s.count then some { s := display c (jump s i) } else some { s := display c s }

/-- `activate`, lib/src/textlist_impl.cpp:570-680: `vis` is the result of `update_layout`. -/
def activate (c : Cfg) (items : List ι) (infos : Option (List Nat)) (filter : Bool) (vis index : Int) : Option (T ι) :=
  if items = [] then none
  else if vis ≤ 0 then none
  else
    let n : Int := items.length
    let i := if index < 0 ∨ index ≥ n then n - 1 else index
    let top := if index < 0 ∨ index ≥ n then max 0 (n - vis) else max 0 (min (i - vis / 2) (n - vis))
    some (display c { items := items, infos := infos, count := n, orig := n, index := i, top := top, vis := vis, filter := filter })

end Clink.TextList
