/-!
Model of the list of `clink-select-complete`: moving in it, scrolling it, drawing it.
Source: clink/lib/src/selectcomplete_impl.cpp, with FISH_ARROW_KEYS and SHOW_VERT_SCROLLBARS
(core/include/core/bldopts.h:26,34).

Integers are unbounded.  Of the text of the matches there are only the widths of the columns, the cells of the longest
match, and on which row the line ends when a match is inserted.  Of the terminal there are the rows below the line.
`none` is a list that has been closed.
-/

namespace Clink.Menu

/-- The settings. -/
structure Cfg where
  /-- `print-completions-horizontally`. -/
  horizontal : Bool := false
  /-- `menu-complete-wraparound`. -/
  wrap : Bool := true
  /-- `match.preview_rows`. -/
  preview : Int := 5
  /-- `match.max_rows`. -/
  maxRows : Int := 0
  /-- `clink.scroll_offset`. -/
  scrollOffset : Int := 3
  /-- `terminal.scrollbars`. -/
  scrollbars : Bool := true

/-- `column_widths`, lib/src/column_widths.h:19-31, as far as it is used here. -/
structure Widths where
  list : List Int
  padding : Int
  rightJustify : Bool
  /-- `max_match_len(0)`. -/
  maxMatch : Int

/-- The matches. -/
structure Items where
  count : Nat
  /-- `m_match_longest`. -/
  longest : Int
  /-- `_rl_vis_botlin` when the match is in the line. -/
  botlin : Int → Int
  hasDesc : Bool
  /-- `is_only_short_descriptions`. -/
  onlyShort : Bool
  /-- `calculate_columns` for (`one_column`, `omit_desc`), lib/src/column_widths.cpp:161-400; see C27. -/
  columns : Bool → Bool → Widths

/-- What is on a row of the terminal below the line. -/
inductive Line
  | blank
  /-- Left over from before a change of the size of the terminal. -/
  | unknown
  /-- These matches, and whether they are highlighted. -/
  | items (l : List (Int × Bool))
  /-- "... and %u more matches ..." -/
  | more (n : Int)
  /-- "rows %u to %u of %u" -/
  | rows (a b c : Int)
  deriving DecidableEq, Repr

structure St where
  it : Items
  screenCols : Int
  screenRows : Int
  /-- `_rl_vis_botlin`. -/
  visBotlin : Int
  widths : Widths
  matchCols : Int := 0
  matchRows : Int := 0
  visibleRows : Int := 0
  displayedRows : Int := 0
  /-- `m_vert_scroll_car` is not 0. -/
  scrollCar : Bool := false
  scrollColumn : Int := 0
  descBelow : Bool := false
  initDescBelow : Bool := true
  requireDescBelow : Bool := false
  anyDisplayed : Bool := false
  commentDisplayed : Bool := false
  expanded : Bool := false
  clearDisplay : Bool := false
  calcWidths : Bool := true
  top : Int := 0
  index : Int := 0
  prevDisplayed : Int := -1
  ignoreOfs : Bool := false
  latched : Bool := false
  prevInput : Nat := 0
  barClicked : Bool := false
  /-- The match that is in the line. -/
  line : Int := -1
  /-- The rows of the terminal below the line. -/
  screen : Nat → Line := fun _ => .blank

def St.count (s : St) : Int := s.it.count

/-- `get_match_row`, lib/src/selectcomplete_impl.cpp:2094-2097. -/
def rowOf (g : Cfg) (s : St) (i : Int) : Int :=
  if g.horizontal then i.tdiv s.matchCols else i.tmod s.matchRows

/-- `get_scroll_offset`, lib/src/selectcomplete_impl.cpp:2100-2106. -/
def scrollOfs (g : Cfg) (s : St) : Int :=
  if g.scrollOffset ≤ 0 then 0 else min g.scrollOffset (max 0 ((s.displayedRows - 1).tdiv 2))

/-- `set_top`, lib/src/selectcomplete_impl.cpp:2115-2125. -/
def setTop (s : St) (top : Int) : St :=
  if top ≠ s.top then { s with top := top, prevDisplayed := -1, commentDisplayed := false } else s

/-- `reset_top`, lib/src/selectcomplete_impl.cpp:2128-2135. -/
def resetTop (s : St) : St :=
  { s with top := 0, index := 0, prevDisplayed := -1, commentDisplayed := false, ignoreOfs := false }

/-- The columns and the rows of the grid, lib/src/selectcomplete_impl.cpp:1347-1384. -/
def layoutGrid (s : St) : St :=
  let one := !s.descBelow && s.it.hasDesc && decide (s.count ≤ 9) && !s.it.onlyShort
  let s := if s.calcWidths then { s with widths := s.it.columns one s.descBelow, calcWidths := false } else s
  let s := if 0 < s.count ∧ s.widths.maxMatch ≥ s.screenCols - 3 then
      { s with requireDescBelow := true, initDescBelow := false, descBelow := true } else s
  let inline_ := !s.descBelow && s.it.hasDesc
  let fit : Int := if !inline_ || s.widths.rightJustify then s.widths.list.length else 1
  let cols := max 1 fit
  { s with matchCols := cols, matchRows := (s.count + (cols - 1)).tdiv cols, ignoreOfs := false }

/-- How many rows there is room for, lib/src/selectcomplete_impl.cpp:1399-1423. -/
def roomFor (g : Cfg) (s : St) : Int :=
  let height := (s.visBotlin + 1) + (s.it.longest + 3 + s.screenCols - 1).tdiv s.screenCols
  let v := s.screenRows - height
  let v := v - min 2 (s.screenRows.tdiv 10)
  let v := if s.descBelow then v - 2 else v
  let v := if v < s.matchRows then v - 1 else v
  let v := if g.maxRows > 0 ∧ v > max 2 g.maxRows then max 2 g.maxRows else v
  if v < 2 then 0 else v

/-- `update_layout`, lib/src/selectcomplete_impl.cpp:1326-1429.  The label `force_desc_below` is reached from two
places. -/
def updateLayout (g : Cfg) (s : St) : St :=
  let init := s.calcWidths && s.initDescBelow
  let s := if init then { s with initDescBelow := false, descBelow := false } else s
  let many := init && s.it.hasDesc && decide (s.count > 100) && !s.it.onlyShort
  let s := if many then { s with descBelow := true } else s
  let init := init && !many
  let s := layoutGrid s
  let s := if init && !s.descBelow && s.it.hasDesc && decide (s.matchRows > 9) && !s.it.onlyShort then
      layoutGrid { s with calcWidths := true, descBelow := true } else s
  { s with visibleRows := roomFor g s, scrollCar := false, scrollColumn := 0 }

/-- The first part of `update_top`, lib/src/selectcomplete_impl.cpp:1434-1445. -/
def topFit (g : Cfg) (s : St) : St :=
  let y := rowOf g s s.index
  if s.top > y then setTop s y
  else
    let rows := min s.matchRows s.visibleRows
    let top := max 0 (y - (rows - 1))
    if s.top < top then setTop s top else s

/-- The second part of `update_top`, lib/src/selectcomplete_impl.cpp:1447-1459. -/
def topOfs (g : Cfg) (s : St) : St :=
  if s.expanded ∧ ¬ s.ignoreOfs ∧ scrollOfs g s > 0 then
    let ofs := scrollOfs g s
    let y := rowOf g s s.index
    let last := max 0 (s.matchRows - s.visibleRows)
    if s.top > max 0 (y - ofs) then setTop s (max 0 (y - ofs))
    else if s.top < min last (y + ofs - s.displayedRows + 1) then setTop s (min last (y + ofs - s.displayedRows + 1))
    else s
  else s

/-- `update_top`, lib/src/selectcomplete_impl.cpp:1432-1463. -/
def updateTop (g : Cfg) (s : St) : St := topOfs g (topFit g s)

/-- `major_stride` and `minor_stride`, lib/src/selectcomplete_impl.cpp:1545-1546. -/
def major (g : Cfg) (s : St) : Int := if g.horizontal then s.matchCols else 1
def minor (g : Cfg) (s : St) : Int := if g.horizontal then 1 else s.matchRows

/-- The matches of a row, lib/src/selectcomplete_impl.cpp:1597-1707. -/
def lineAt (count minor index : Int) : Nat → Int → List (Int × Bool)
  | 0, _ => []
  | n + 1, i => if i ≥ count then [] else (i, decide (i = index)) :: lineAt count minor index n (i + minor)

def upd (f : Nat → Line) (r : Nat) (l : Line) : Nat → Line := fun k => if k = r then l else f k

/-- Clearing the rows first, lib/src/selectcomplete_impl.cpp:1565-1571. -/
def clearAt (row : Nat) (s : St) : St :=
  if s.clearDisplay ∧ row = 0 then
    { s with screen := fun _ => .blank, commentDisplayed := false, prevDisplayed := -1, clearDisplay := false }
  else s

/-- One row, lib/src/selectcomplete_impl.cpp:1587-1763. -/
def paintRow (g : Cfg) (row : Nat) (s : St) : St :=
  if s.prevDisplayed < 0 ∨ row + s.top = rowOf g s s.index ∨ row + s.top = rowOf g s s.prevDisplayed then
    let l := lineAt s.count (minor g s) s.index s.matchCols.toNat ((s.top + row) * major g s)
    { s with screen := upd s.screen row (.items l) }
  else s

/-- The loop over the rows, lib/src/selectcomplete_impl.cpp:1554-1763; `n` rows are left. -/
def paint (g : Cfg) : Nat → Nat → St → St
  | 0, _, s => s
  | n + 1, row, s =>
    if (s.top + row) * major g s ≥ s.count then s else paint g n (row + 1) (paintRow g row (clearAt row s))

/-- How many rows the loop visits (`up`). -/
def visited (g : Cfg) (s : St) : Nat → Nat → Nat
  | 0, _ => 0
  | n + 1, row => if (s.top + row) * major g s ≥ s.count then 0 else visited g s n (row + 1) + 1

/-- How many matches are on the rows that the loop visits (`shown`), lib/src/selectcomplete_impl.cpp:1573-1585. -/
def shown (g : Cfg) (s : St) : Nat → Nat → Int
  | 0, _ => 0
  | n + 1, row =>
    let i := (s.top + row) * major g s
    if i ≥ s.count then 0
    else (lineAt s.count (minor g s) s.index s.matchCols.toNat i).length + shown g s n (row + 1)

/-- Whether to expand, lib/src/selectcomplete_impl.cpp:1504-1522. -/
def expand (g : Cfg) (s : St) : St :=
  if s.expanded then s
  else if g.preview ≤ 0 ∨ g.preview + 1 ≥ s.visibleRows then
    { s with expanded := true, prevDisplayed := -1, commentDisplayed := false }
  else if s.index ≥ 0 then
    if rowOf g s s.index ≥ g.preview then
      { s with expanded := true, prevDisplayed := -1, commentDisplayed := false }
    else s
  else s

/-- `show_more_comment_row`, lib/src/selectcomplete_impl.cpp:1525. -/
def showMore (g : Cfg) (s : St) : Bool := !s.expanded && decide (g.preview + 1 < s.matchRows)

/-- The comment row, lib/src/selectcomplete_impl.cpp:1765-1785. -/
def comment (g : Cfg) (s : St) : St :=
  if showMore g s ∨ s.visibleRows < s.matchRows then
    if s.commentDisplayed then s
    else
      let n := visited g s s.displayedRows.toNat 0
      let l := if !s.expanded then
          Line.more (s.count - (if showMore g s then shown g s s.displayedRows.toNat 0 else 0))
        else Line.rows (s.top + 1) (s.top + s.visibleRows) s.matchRows
      { s with screen := upd s.screen n l, commentDisplayed := true }
  else s

/-- How many rows are shown, lib/src/selectcomplete_impl.cpp:1526. -/
def rowsFor (g : Cfg) (s : St) : Int := min s.visibleRows (if showMore g s then g.preview else s.matchRows)

/-- What the drawing starts from, lib/src/selectcomplete_impl.cpp:1468-1471, 1504-1531. -/
def drawBase (g : Cfg) (s : St) : St :=
  let s := expand g { s with scrollCar := false, scrollColumn := 0 }
  updateTop g { s with displayedRows := rowsFor g s }

/-- Whether there is a scroll car, lib/src/selectcomplete_impl.cpp:1534-1536.  `calc_scroll_car_size` is not 0 if some
but not all rows are shown (lib/src/scroll_car.cpp:39-46, see C28). -/
def drawCar (g : Cfg) (s : St) : St :=
  let car := g.scrollbars && decide (8 ≤ s.screenCols) && decide (0 < s.displayedRows ∧ s.displayedRows < s.matchRows)
  { s with scrollCar := car, scrollColumn := if car then s.screenCols - 2 else 0 }

/-- `update_display` while the list is open and has matches, lib/src/selectcomplete_impl.cpp:1466-1886. -/
def updateDisplay (g : Cfg) (s : St) : St :=
  if s.visibleRows ≤ 0 then { s with scrollCar := false, scrollColumn := 0 }
  else
    let b := drawCar g (drawBase g s)
    { comment g (paint g b.displayedRows.toNat 0 b) with prevDisplayed := b.index, anyDisplayed := true }

/-- `insert_match` where it is not final, lib/src/selectcomplete_impl.cpp:1928-2091. -/
def insertMatch (g : Cfg) (s : St) : St :=
  let b := s.it.botlin s.index
  let s' := { s with line := s.index, visBotlin := b }
  if s.visBotlin ≠ b then
    updateLayout g { s' with screen := fun _ => .blank, prevDisplayed := -1, commentDisplayed := false }
  else s'

/-- The label `navigated`, lib/src/selectcomplete_impl.cpp:514-517. -/
def navigated (g : Cfg) (s : St) : St := updateDisplay g (insertMatch g s)

/-- The label `next`, lib/src/selectcomplete_impl.cpp:509-517, and the same key. -/
def next (g : Cfg) (s : St) : St :=
  let i := s.index + 1
  navigated g { s with index := if i ≥ s.count then (if g.wrap then 0 else s.count - 1) else i }

/-- The label `prev`, lib/src/selectcomplete_impl.cpp:518-523. -/
def prev (g : Cfg) (s : St) : St :=
  let i := s.index - 1
  navigated g { s with index := if i < 0 then (if g.wrap then s.count - 1 else 0) else i }

/-- The loop of `move_selection_lower`, lib/src/selectcomplete_impl.cpp:162-163. -/
def shrink (count major index : Int) : Int :=
  if h : index < count ∨ major ≤ 0 then index else shrink count major (index - major)
termination_by (index - count + 1).toNat
decreasing_by omega

/-- `move_selection_lower`, lib/src/selectcomplete_impl.cpp:146-165. -/
def lower (wrap : Bool) (index major minor count : Int) : Int :=
  if index = 0 then
    if wrap then shrink count major (index - 1 + major * minor) else index
  else if index - major < 0 then shrink count major (index - major - 1 + major * minor)
  else index - major

/-- `move_selection_higher`, lib/src/selectcomplete_impl.cpp:167-190: the index and whether it is latched; `none` if
nothing happens. -/
def higher (wrap : Bool) (index major count : Int) (latched : Bool) : Option (Int × Bool) :=
  if latched then none
  else if index + major ≥ count ∧ (index + 1).tmod major = 0 then
    if wrap then some (0, latched) else some (count - 1, true)
  else if index + major ≥ count then some ((index + major + 1).tmod major, latched)
  else some (index + major, latched)

/-- The label `arrow_next`, lib/src/selectcomplete_impl.cpp:552-556. -/
def arrowNext (g : Cfg) (s : St) : St :=
  next g (if !g.wrap && decide (s.index = s.count - 1) then { s with latched := true } else s)

/-- Moving with `move_selection_higher` along lines of the length `major`. -/
def moveHigher (g : Cfg) (s : St) (major : Int) : St :=
  match higher g.wrap s.index major s.count s.latched with
  | none => s
  | some (i, l) => navigated g { s with index := i, latched := l }

/-- `bind_id_selectcomplete_up`, lib/src/selectcomplete_impl.cpp:531-542. -/
def up (g : Cfg) (s : St) : St :=
  if g.horizontal then navigated g { s with index := lower g.wrap s.index s.matchCols s.matchRows s.count } else prev g s

/-- `bind_id_selectcomplete_down`, lib/src/selectcomplete_impl.cpp:543-557. -/
def down (g : Cfg) (s : St) : St := if g.horizontal then moveHigher g s s.matchCols else arrowNext g s

/-- `bind_id_selectcomplete_left` and the wheel to the left, lib/src/selectcomplete_impl.cpp:559-564. -/
def left (g : Cfg) (s : St) : St :=
  if g.horizontal then prev g s else navigated g { s with index := lower g.wrap s.index s.matchRows s.matchCols s.count }

/-- `bind_id_selectcomplete_right` and the wheel to the right, lib/src/selectcomplete_impl.cpp:565-571. -/
def right (g : Cfg) (s : St) : St := if g.horizontal then arrowNext g s else moveHigher g s s.matchRows

/-- `bind_id_selectcomplete_pgup`, lib/src/selectcomplete_impl.cpp:630-650. -/
def pageUp (g : Cfg) (s : St) : St :=
  let y := rowOf g s s.index
  let rows := min s.matchRows s.visibleRows
  let ofs := scrollOfs g s
  let scroll := rows - ofs - 1
  if y = 0 then navigated g { s with index := 0 }
  else
    let y' := max 0 (if y ≤ s.top + ofs then y - scroll else s.top + ofs)
    navigated g { s with index := s.index + (y' - y) * major g s }

/-- `bind_id_selectcomplete_pgdn`, lib/src/selectcomplete_impl.cpp:630-692. -/
def pageDown (g : Cfg) (s : St) : St :=
  let y := rowOf g s s.index
  let rows := min s.matchRows s.visibleRows
  let ofs := scrollOfs g s
  let scroll := rows - ofs - 1
  if y = s.matchRows - 1 then navigated g { s with index := s.count - 1 }
  else
    let stride := major g s
    let y' := min (s.matchRows - 1) (if y ≥ s.top + scroll then y + scroll else s.top + scroll)
    let i := s.index + (y' - y) * stride
    if i ≥ s.count then
      if g.horizontal then
        navigated g (setTop { s with index := if y + 1 < y' then i - stride else s.count - 1 }
          (max 0 (s.matchRows - rows)))
      else
        let i := s.count - 1
        navigated g (setTop { s with index := i }
          (max 0 (if rowOf g s i ≥ s.top + rows then min (rowOf g s i) (s.matchRows - rows) else s.top)))
    else navigated g (setTop { s with index := i } (max 0 s.top))

/-- `bind_id_selectcomplete_last`, lib/src/selectcomplete_impl.cpp:698-709. -/
def last (g : Cfg) (s : St) : St :=
  let i := s.count - 1
  let rows := min s.matchRows s.visibleRows
  let row := rowOf g s i
  let row := if row + 1 < s.matchRows then row + 1 else row
  navigated g (setTop { s with index := i } (max 0 (row - (rows - 1))))

inductive Button | click | double | drag
  deriving DecidableEq, Repr

/-- `hittest_scroll_car`, lib/src/scroll_car.cpp:123-129; see C28. -/
def hittest (row rows total : Int) : Int := if rows ≤ 1 ∨ total ≤ 1 then 0 else (row * (total - 1)).tdiv (rows - 1)

/-- The search for the column, lib/src/selectcomplete_impl.cpp:749-781: the index of the match. -/
def hitColumn (screenCols pad minor : Int) (scrolling : Bool) (p0 : Int) : List Int → Int → Int → Option Int
  | [], _, _ => none
  | w :: ws, x, i =>
    let cw := if ws.isEmpty then w + screenCols else if scrolling then w + pad else w
    if p0 ≥ x ∧ p0 < x + cw then some i else hitColumn screenCols pad minor scrolling p0 ws (x + w + pad) (i + minor)

/-- Selecting what was hit, lib/src/selectcomplete_impl.cpp:759-769. -/
def hitState (g : Cfg) (s : St) (i revert : Int) : St :=
  if i ≥ s.count then
    setTop { s with index := s.count - 1, ignoreOfs := true } (max revert (rowOf g s s.count - (s.displayedRows - 1)))
  else { s with index := i, ignoreOfs := true }

/-- The label `do_mouse_position`, lib/src/selectcomplete_impl.cpp:744-781. -/
def mousePos (g : Cfg) (s : St) (b : Button) (p0 row revert : Int) (scrolling : Bool) : Option St :=
  match hitColumn s.screenCols s.widths.padding (minor g s) scrolling p0 s.widths.list 0 (major g s * row) with
  | none => some s
  | some i => if b = .double then none else some (navigated g (hitState g s i revert))

/-- Whether the scroll bar was clicked, lib/src/selectcomplete_impl.cpp:723-728. -/
def barState (s : St) (b : Button) (p0 p1 : Int) : St :=
  if s.scrollCar ∧ b ≠ .drag then
    { s with barClicked := decide (p0 = s.scrollColumn ∧ 0 ≤ p1 ∧ p1 < s.displayedRows) } else s

/-- The mouse, lib/src/selectcomplete_impl.cpp:711-821; `p1` counts from the first row of the list, `can` and `speed`
are what the scroll helper says. -/
def mouse (g : Cfg) (s : St) (b : Button) (p0 p1 : Int) (can : Bool) (speed : Int) : Option St :=
  let s := barState s b p0 p1
  let rows := s.displayedRows
  if s.barClicked then
    let row := min (max p1 0) (rows - 1)
    let i := hittest row rows s.matchRows * major g s
    let s := setTop { s with index := i } (min (max (i - rows.tdiv 2) 0) (s.matchRows - rows))
    some (navigated g s)
  else if 0 ≤ p1 ∧ p1 < rows then mousePos g s b p0 (p1 + s.top) s.top false
  else if p1 < 0 then
    if b = .drag then
      if can ∧ s.top > 0 then
        let s' := setTop s (max 0 (s.top - speed))
        mousePos g s' b p0 s'.top s.top true
      else some s
    else none
  else if ¬ s.expanded then
    some (updateDisplay g { s with expanded := true, commentDisplayed := false, prevDisplayed := -1 })
  else if b = .drag then
    if can ∧ s.top + rows < s.matchRows then
      mousePos g (setTop s (min (s.matchRows - rows) (s.top + speed))) b p0 (s.top + rows) s.top true
    else some s
  else some s

/-- The wheel, lib/src/selectcomplete_impl.cpp:823-856. -/
def wheelUp (g : Cfg) (s : St) (n : Nat) : St :=
  let i := s.index - min (rowOf g s s.index) n * major g s
  if i ≠ s.index then updateDisplay g { s with index := i } else s

def wheelState (g : Cfg) (s : St) (i : Int) : St :=
  if i ≥ s.count then
    let rows := min s.matchRows s.visibleRows
    if s.top + rows - 1 = rowOf g s (s.count - 1) then
      setTop { s with index := s.count - 1 } (min (max 0 (s.matchRows - rows)) (s.top + 1))
    else { s with index := s.count - 1 }
  else { s with index := i }

def wheelDown (g : Cfg) (s : St) (n : Nat) : St :=
  let s' := wheelState g s (s.index + min (s.matchRows - 1 - rowOf g s s.index) n * major g s)
  if s'.index ≠ s.index ∨ s'.top ≠ s.top then updateDisplay g s' else s'

/-- `bind_id_selectcomplete_f1`, lib/src/selectcomplete_impl.cpp:925-948. -/
def f1 (g : Cfg) (s : St) : St :=
  if s.it.hasDesc ∧ ¬ s.requireDescBelow then
    let delta := rowOf g s s.index - s.top
    let s := updateLayout g { s with descBelow := !s.descBelow, calcWidths := true }
    let top := max 0 (rowOf g s s.index - delta)
    let maxTop := max 0 (s.matchRows - s.visibleRows)
    let s := setTop s (if top > maxTop then maxTop else top)
    updateDisplay g { s with clearDisplay := true }
  else s

/-- The label `update_needle`, lib/src/selectcomplete_impl.cpp:973-983, with `update_matches`, 1294-1310: `it` are the
matches for the new text. -/
def typed (g : Cfg) (s : St) (it : Items) : Option St :=
  let s := resetTop s
  let s := { s with it := it, clearDisplay := s.anyDisplayed, calcWidths := true, ignoreOfs := false }
  let s := updateLayout g s
  if it.count = 0 then none else some (insertMatch g (updateDisplay g s))

/-- `on_terminal_resize`, lib/src/selectcomplete_impl.cpp:1006-1017; `b` is `_rl_vis_botlin` then. -/
def resize (g : Cfg) (s : St) (cols rows b : Int) : St :=
  updateDisplay g (updateLayout g
    { s with screenCols := cols, screenRows := rows, visBotlin := b, screen := fun _ => .unknown, prevDisplayed := -1 })

/-- Input while the list is open. -/
inductive Input
  | next | prev | up | down | left | right | wheelLeft | wheelRight | pageUp | pageDown | first | last
  | mouse (b : Button) (p0 p1 : Int) (can : Bool) (speed : Int)
  | wheelUp (n : Nat) | wheelDown (n : Nat)
  | f1
  /-- Text, or Backspace; the new matches. -/
  | typed (it : Items)
  /-- Not a key. -/
  | resize (cols rows botlin : Int)
  /-- Any other key. -/
  | close

/-- The numbers of the inputs, lib/src/selectcomplete_impl.cpp:109-139. -/
def Input.id : Input → Nat
  | .next => 60 | .prev => 61 | .up => 62 | .down => 63 | .left => 64 | .right => 65 | .pageUp => 66 | .pageDown => 67
  | .first => 68 | .last => 69 | .mouse .click .. => 70 | .mouse .double .. => 71 | .wheelUp _ => 72 | .wheelDown _ => 73
  | .wheelLeft => 74 | .wheelRight => 75 | .mouse .drag .. => 76 | .f1 => 85 | .typed _ => 86 | .resize .. => 0 | .close => 80

/-- What happens before the input is looked at, lib/src/selectcomplete_impl.cpp:464-472 and 504. -/
def before (s : St) (i : Input) : St :=
  let s := if s.prevInput ≠ i.id then
      { s with latched := if i.id ≠ 63 ∧ i.id ≠ 65 then false else s.latched, prevInput := i.id } else s
  { s with ignoreOfs := false }

/-- `on_input`, lib/src/selectcomplete_impl.cpp:456-987, and `on_terminal_resize`. -/
def step (g : Cfg) (s : St) (i : Input) : Option St :=
  match i with
  | .resize cols rows b => some (resize g s cols rows b)
  | i =>
    if s.count = 0 ∨ s.visibleRows ≤ 0 then none
    else
      let s := before s i
      match i with
      | .next => some (next g s)
      | .prev => some (prev g s)
      | .up => some (up g s)
      | .down => some (down g s)
      | .left | .wheelLeft => some (left g s)
      | .right | .wheelRight => some (right g s)
      | .pageUp => some (pageUp g s)
      | .pageDown => some (pageDown g s)
      | .first => some (navigated g { s with index := 0 })
      | .last => some (last g s)
      | .mouse b p0 p1 can speed => mouse g s b p0 p1 can speed
      | .wheelUp n => some (wheelUp g s n)
      | .wheelDown n => some (wheelDown g s n)
      | .f1 => some (f1 g s)
      | .typed it => typed g s it
      | .resize .. | .close => none

/-- `activate`, lib/src/selectcomplete_impl.cpp:206-351, for several matches and a list that was not open; `yes` is the
answer to "Display all possibilities?", if that was asked. -/
def activate (g : Cfg) (it : Items) (screenCols screenRows botlin : Int) (yes : Bool) : Option St :=
  let s := updateLayout g
    { it := it, screenCols := screenCols, screenRows := screenRows, visBotlin := botlin, widths := it.columns false false }
  if it.count ≤ 1 ∨ s.visibleRows ≤ 0 then none
  else some (navigated g (resetTop { s with expanded := yes }))

end Clink.Menu
