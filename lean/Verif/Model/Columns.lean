/-!
Model of the layout of matches in columns.
Sources: clink/lib/src/column_widths.cpp, clink/lib/src/column_widths.h (`width_t` is `unsigned short`, with
`USE_DESC_PARENS`) and `display_match_list_internal`, clink/lib/src/display_matches.cpp:886-1040.

Widths are numbers of cells.  Arithmetic on `width_t` wraps around; other integers are unbounded.  What the adapter and
Readline say of a match is given by `Item`.
-/

namespace Clink.Columns

/-- What `calculate_columns` asks of a match.
* `printable`: `printable_len(match, type)`;
* `display`: `adapter.get_match_visible_display`;
* `useDisplay`, `append`: `adapter.use_display`, `adapter.is_append_display`;
* `longer`: the printable part of the match has more bytes than the common prefix (`strlen(visible) > sind`);
* `desc`: `adapter.get_match_visible_description`; 0 if there is none;
* `aligned`: the description has three adjacent spaces. -/
structure Item where
  printable : Nat
  display : Nat := 0
  useDisplay : Bool := false
  append : Bool := false
  longer : Bool := true
  desc : Nat := 0
  aligned : Bool := false
  deriving DecidableEq, Repr

/-- Arguments of `calculate_columns` and the settings it reads.
* `screen`: `__complete_get_screenwidth()`;
* `vertical`: `!_rl_print_completions_horizontally`;
* `scrollbar`: `use_vert_scrollbars()`;
* `maxMatches`, `oneColumn`, `omitDesc`, `extra`, `presuf`: arguments;
* `hasDesc`: `adapter.has_descriptions()`;
* `condense`: `condense_delta`, column_widths.cpp:189-211, 0 if the common prefix is not abbreviated. -/
structure Cfg where
  screen : Nat
  vertical : Bool := true
  scrollbar : Bool := false
  maxMatches : Int := 0
  oneColumn : Bool := false
  omitDesc : Bool := false
  hasDesc : Bool := false
  extra : Nat := 0
  presuf : Bool := false
  condense : Nat := 0
  deriving DecidableEq, Repr

/-- Conversion to `width_t`, column_widths.h:18. -/
def w16 (n : Nat) : Nat := n % 65536

/-- `a - b` in `width_t`. -/
def sub16 (a b : Nat) : Nat := (a + 65536 - b % 65536) % 65536

/-- `has_descriptions`, column_widths.cpp:165. -/
def Cfg.descs (g : Cfg) : Bool := !g.omitDesc && g.hasDesc

/-- `col_padding`, column_widths.cpp:166. -/
def Cfg.pad (g : Cfg) : Nat := if g.descs then 4 else 2

/-- `screen_width`, column_widths.cpp:170-177. -/
def Cfg.width (g : Cfg) : Nat :=
  g.screen - (if g.scrollbar && !g.descs && g.screen > 1 then 1 else 0)

/-- `line_length`, column_widths.cpp:178. -/
def Cfg.lineLength (g : Cfg) : Nat := g.width + (g.pad - 1)

/-- `no_right_justify`, column_widths.cpp:228-246. -/
def noJustify (g : Cfg) (l : List Item) : Bool := !g.descs || l.any (·.aligned)

/-- `desc_padding`, column_widths.cpp:249-251. -/
def descPad (g : Cfg) (nrj : Bool) : Nat := if !g.descs then 0 else if !nrj then 2 else 4

/-- `paren_cells`, column_widths.cpp:253. -/
def parens (nrj : Bool) : Nat := if nrj then 0 else 2

/-- `match_len`, column_widths.cpp:264-300. -/
def matchLen (g : Cfg) (x : Item) : Nat :=
  let m := w16 g.extra
  let m :=
    if x.useDisplay then
      if x.append then w16 (w16 (m + x.printable) + x.display) else w16 (m + x.display)
    else w16 (m + x.printable)
  let cdelta := if x.useDisplay && !x.append && !g.presuf then 0 else g.condense
  if cdelta ≠ 0 ∧ x.longer = true then sub16 m cdelta else m

/-- `desc_len`, column_widths.cpp:305-313. -/
def descLen (g : Cfg) (nrj : Bool) (x : Item) : Nat :=
  if g.descs then
    let d := min 1024 x.desc
    if d ≠ 0 then w16 (d + descPad g nrj + parens nrj) else d
  else 0

/-- `columns_info` with its `column_info`s (`a_len`, `b_len`), column_widths.cpp:37-47. -/
structure Info where
  valid : Bool
  line : Nat
  cols : List (Nat × Nat)
  deriving DecidableEq, Repr

/-- The loop of `init_column_info`, column_widths.cpp:141-153: entry `i` has `i + 1` columns. -/
def initInfos (g : Cfg) (maxCols : Nat) : List Info :=
  (List.range maxCols).map fun i =>
    { valid := true, line := w16 ((i + 1) * (1 + g.pad)), cols := List.replicate (i + 1) (1, g.pad) }

/-- Does `init_column_info` return true?  column_widths.cpp:97-101.  Allocation does not fail. -/
def canFit (g : Cfg) (count : Nat) : Bool :=
  !(decide (g.maxMatches < 0) || (g.maxMatches != 0 && decide ((count : Int) > g.maxMatches)))

/-- `max_cols` after `init_column_info`, column_widths.cpp:179-187, 103-105. -/
def maxCols (g : Cfg) (count : Nat) : Nat :=
  let maxIdx := g.lineLength / (1 + g.pad)
  min (if count < maxIdx then count else maxIdx) 50

/-- `idx`, column_widths.cpp:326-328. -/
def colIdx (vertical : Bool) (count j file : Nat) : Nat :=
  if vertical then file / ((count + j) / (j + 1)) else file % (j + 1)

/-- One round of the inner loop for an entry, column_widths.cpp:324-351. -/
def update (g : Cfg) (nrj : Bool) (count file m d j : Nat) (info : Info) : Info :=
  if info.valid then
    let idx := colIdx g.vertical count j file
    let arr := info.cols.getD idx (0, 0)
    let a := if nrj then max arr.1 m else w16 (m + d)
    let b := if nrj then w16 (d + g.pad) else g.pad
    let info :=
      if arr.1 < a then
        let line := w16 (info.line + (a - arr.1))
        { valid := decide (line < g.lineLength), line, cols := info.cols.set idx (a, arr.2) }
      else info
    if arr.2 < b then
      let line := w16 (info.line + (b - arr.2))
      { valid := decide (line < g.lineLength), line, cols := info.cols.set idx ((info.cols.getD idx (0, 0)).1, b) }
    else info
  else info

/-- `max_valid + 1` after the inner loop, column_widths.cpp:321, 349-350. -/
def validCount : List Info → Nat
  | [] => 0
  | info :: l => if validCount l ≠ 0 then validCount l + 1 else if info.valid then 1 else 0

/-- The inner loop, column_widths.cpp:321-355.  `max_cols` is the length of the list. -/
def stepInfos (g : Cfg) (nrj : Bool) (count file m d : Nat) (infos : List Info) : List Info :=
  let infos := infos.mapIdx (update g nrj count file m d)
  infos.take (validCount infos)

/-- The outer loop, column_widths.cpp:262-356. -/
def fitFrom (g : Cfg) (nrj : Bool) (count : Nat) : Nat → List Item → List Info → List Info
  | _, [], infos => infos
  | file, x :: l, infos =>
    fitFrom g nrj count (file + 1) l (stepInfos g nrj count file (matchLen g x) (descLen g nrj x) infos)

/-- `max_match`, column_widths.cpp:302-303. -/
def maxMatch (g : Cfg) (l : List Item) : Nat := l.foldl (fun n x => max n (matchLen g x)) 0
/-- `max_desc`, column_widths.cpp:311-312. -/
def maxDesc (g : Cfg) (nrj : Bool) (l : List Item) : Nat := l.foldl (fun n x => max n (descLen g nrj x)) 0
/-- `max_len`, column_widths.cpp:315-316. -/
def maxLen (g : Cfg) (nrj : Bool) (l : List Item) : Nat :=
  l.foldl (fun n x => max n (matchLen g x + descLen g nrj x)) 0

/-- `column_widths`, column_widths.h:19-31, without `m_sind` and `m_can_condense`. -/
structure Widths where
  widths : List Nat
  matchLens : List Nat
  colPad : Nat
  descPad : Nat
  rightJustify : Bool
  deriving DecidableEq, Repr

/-- The loop for `limit`, column_widths.cpp:377-382. -/
def findLimit (infos : List Info) : Nat → Nat
  | 0 => 0
  | 1 => 1
  | n + 2 => if (infos[n + 1]?.map (·.valid)).getD false then n + 2 else findLimit infos (n + 1)

/-- `fixed_cols`, column_widths.cpp:187. -/
def fixedCols (g : Cfg) (l : List Item) : Bool := !canFit g l.length || g.oneColumn

/-- The table after the loop, column_widths.cpp:187, 262-356. -/
def table (g : Cfg) (l : List Item) : List Info :=
  if fixedCols g l then [] else fitFrom g (noJustify g l) l.length 0 l (initInfos g (maxCols g l.length))

/-- `variable_widths`, column_widths.cpp:364. -/
def varWidths (g : Cfg) (l : List Item) : Bool := !(fixedCols g l || (table g l).length == 0)

/-- `limit`, column_widths.cpp:363-382. -/
def limitOf (g : Cfg) (l : List Item) : Nat :=
  if !varWidths g l then
    if g.oneColumn then 1 else max (g.lineLength / (maxLen g (noJustify g l) l + g.pad)) 1
  else findLimit (table g l) (table g l).length

/-- `s_columns_info[limit - 1].col_arr[i]`, column_widths.cpp:384-387. -/
def colArr (g : Cfg) (l : List Item) (i : Nat) : Nat × Nat :=
  ((table g l).getD (limitOf g l - 1) ⟨false, 0, []⟩).cols.getD i (0, 0)

/-- `m_widths`, column_widths.cpp:369-391. -/
def firstWidths (g : Cfg) (l : List Item) : List Nat :=
  if !varWidths g l then List.replicate (limitOf g l) (w16 (maxLen g (noJustify g l) l))
  else (List.range (limitOf g l)).map fun i => sub16 (w16 ((colArr g l i).1 + (colArr g l i).2)) g.pad

/-- `m_max_match_len_in_column`, column_widths.cpp:369-391. -/
def firstMatchLens (g : Cfg) (l : List Item) : List Nat :=
  if !varWidths g l then List.replicate (limitOf g l) (w16 (maxMatch g l))
  else (List.range (limitOf g l)).map fun i => (colArr g l i).1

/-- `m_right_justify`, column_widths.cpp:393-395. -/
def justifies (g : Cfg) (l : List Item) : Bool :=
  !noJustify g l &&
    (decide ((firstWidths g l).length > 1) || decide (maxMatch g l > g.width * 4 / 10)) &&
    (decide (g.width < 2) || decide ((firstWidths g l).headD 0 < g.width - 2))

/-- `calculate_columns`, column_widths.cpp:161-414.  The reference to an entry of a table that may not exist
(lines 404 and 407) is left out: it is not used. -/
def calculate (g : Cfg) (l : List Item) : Widths :=
  if !noJustify g l && !justifies g l then
    { widths := List.replicate (limitOf g l)
        (w16 (maxMatch g l + (4 - descPad g (noJustify g l)) + maxDesc g (noJustify g l) l))
      matchLens := List.replicate (limitOf g l) (w16 (maxMatch g l))
      colPad := g.pad, descPad := 4, rightJustify := false }
  else
    { widths := firstWidths g l, matchLens := firstMatchLens g l, colPad := g.pad
      descPad := descPad g (noJustify g l), rightJustify := justifies g l }

/-! `display_match_list_internal`. -/

/-- `rows`, display_matches.cpp:899. -/
def numRows (count limit : Nat) : Nat := (count + (limit - 1)) / limit

/-- The matches of a row: the loop of display_matches.cpp:927-930, 1003, without printing. -/
def rowFrom (count limit minor : Nat) : Nat → Nat → List Nat
  | 0, _ => []
  | n + 1, l => if l ≥ count then [] else l :: rowFrom count limit minor n (l + minor)

/-- The rows, display_matches.cpp:912-930: `major_stride` and `minor_stride`. -/
def rowsOf (vertical : Bool) (count limit : Nat) : List (List Nat) :=
  (List.range (numRows count limit)).map fun i =>
    rowFrom count limit (if vertical then numRows count limit else 1) limit (i * (if vertical then 1 else limit))

/-- The number of spaces `pad_filename` appends when nothing is selected, display_matches.cpp:617-644. -/
def spaces (len to : Nat) : Nat := if to ≤ len then 1 else to - len

/-- `col_max`, display_matches.cpp:932-934.  The screen has at least one column. -/
def colMax (g : Cfg) (w : Widths) (j : Nat) : Nat :=
  if g.hasDesc && !w.rightJustify then g.screen - 1 else w.widths.getD j 0

/-- `parens`, display_matches.cpp:972-977. -/
def Widths.par (w : Widths) : Nat := if w.rightJustify then 2 else 0

/-- `pad_to`, display_matches.cpp:978-980. -/
def padTo (g : Cfg) (w : Widths) (j : Nat) (x : Item) : Nat :=
  if w.rightJustify then max (matchLen g x + w.descPad) (colMax g w j - (x.desc + w.par))
  else w.matchLens.getD j 0 + w.descPad

/-- Is the description shown?  display_matches.cpp:967-970, 981.  A description that is not empty has a width that is
not 0. -/
def showsDesc (g : Cfg) (w : Widths) (j : Nat) (x : Item) : Bool :=
  g.hasDesc && x.desc != 0 && decide (padTo g w j x < g.screen - 1)

/-- A cell as printed: the match, where it begins and ends, and where the description with its parentheses begins and
ends; and `printed_len` at the end of the cell. -/
structure Cell where
  item : Nat
  start : Nat
  matchEnd : Nat
  desc : Option (Nat × Nat)
  printed : Nat
  deriving DecidableEq, Repr

/-- Where the cell ends on the screen. -/
def Cell.stop (c : Cell) : Nat := match c.desc with
  | some d => d.2
  | none => c.matchEnd

/-- What is printed for a match with its description, display_matches.cpp:936-1001.  The match is as wide as
`calculate_columns` took it to be.  `ell i n` is the width of what `ellipsify` makes of the description of match `i` with the
limit `n`. -/
def cellOf (ell : Nat → Int → Nat) (g : Cfg) (w : Widths) (j i start : Nat) (x : Item) : Cell :=
  let printed := matchLen g x
  if showsDesc g w j x then
    let from' := start + printed + spaces printed (padTo g w j x)
    let e := ell i ((colMax g w j : Int) - (padTo g w j x + w.par : Nat))
    { item := i, start, matchEnd := start + printed, desc := some (from', from' + w.par + e)
      printed := padTo g w j x + w.par + e }
  else { item := i, start, matchEnd := start + printed, desc := none, printed }

/-- The cells of a row, display_matches.cpp:926-1007.  `ids` are the matches of the row from column `j` on, which begins
at `start`. -/
def printFrom (ell : Nat → Int → Nat) (g : Cfg) (w : Widths) (items : List Item) : Nat → Nat → List Nat → List Cell
  | _, _, [] => []
  | j, start, i :: ids =>
    let c := cellOf ell g w j i start (items.getD i ⟨0, 0, false, false, true, 0, false⟩)
    c :: printFrom ell g w items (j + 1) (c.stop + spaces c.printed (colMax g w j + w.colPad)) ids

/-- The rows as printed, display_matches.cpp:885-1042, for a screen without paging. -/
def printRows (ell : Nat → Int → Nat) (g : Cfg) (items : List Item) : List (List Cell) :=
  let w := calculate g items
  (rowsOf g.vertical items.length w.widths.length).map (printFrom ell g w items 0 0)

end Clink.Columns
