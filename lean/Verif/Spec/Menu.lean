import Verif.Model.Menu

/-!
What a list of matches should look like, and where keys should lead.
-/

namespace Clink.Menu.Spec

/-- Matches 0 to `count - 1` in a grid. -/
structure Grid where
  horizontal : Bool
  count : Int
  rows : Int
  cols : Int

/-- The match that belongs in a cell, if there is such a match. -/
def Grid.item (G : Grid) (r c : Int) : Int := if G.horizontal then r * G.cols + c else c * G.rows + r

/-- Match `i` is in the cell. -/
def Grid.Cell (G : Grid) (i r c : Int) : Prop :=
  0 ≤ r ∧ r < G.rows ∧ 0 ≤ c ∧ c < G.cols ∧ i < G.count ∧ i = G.item r c

/-- There are as many rows as needed. -/
def Grid.Fits (G : Grid) : Prop :=
  1 ≤ G.count ∧ 1 ≤ G.cols ∧ 1 ≤ G.rows ∧ G.count ≤ G.rows * G.cols ∧ (G.rows - 1) * G.cols < G.count

/-- The matches of a row. -/
def Grid.row (G : Grid) (r : Int) : List Int :=
  ((List.range G.cols.toNat).map fun c : Nat => G.item r c).filter fun i => decide (i < G.count)

/-- What should be drawn for a row when `sel` is selected. -/
def Grid.line (G : Grid) (sel r : Int) : Line := .items ((G.row r).map fun i => (i, decide (i = sel)))

/-- The screen has `n` rows of the grid, from row `top` on. -/
def Shows (G : Grid) (sel top : Int) (n : Nat) (screen : Nat → Line) : Prop :=
  ∀ r : Nat, r < n → screen r = G.line sel (top + r)

/-- How many matches are on `n` rows from `top` on. -/
def Grid.on (G : Grid) : Int → Nat → Int
  | _, 0 => 0
  | top, n + 1 => (G.row top).length + Grid.on G (top + 1) n

/-- A comment that is true when `n` rows from `top` on are shown. -/
def Grid.Comment (G : Grid) (top : Int) (n : Nat) (l : Line) : Prop :=
  l = .rows (top + 1) (top + n) G.rows ∨ l = .more (G.count - G.on top n)

/-- The screen has `n` rows of the grid from row `top` on and a comment if these are not all; all else is blank. -/
def Picture (G : Grid) (sel top : Int) (n : Nat) (screen : Nat → Line) : Prop :=
  Shows G sel top n screen ∧ (if n < G.rows then G.Comment top n (screen n) else screen n = .blank) ∧
    ∀ r, n < r → screen r = .blank

/-- The order in which one reads along the rows. -/
def Across (r c r' c' : Int) : Prop := r < r' ∨ r = r' ∧ c < c'

/-- `j` comes directly behind `i` along the rows. -/
def Grid.NextAcross (G : Grid) (i j : Int) : Prop :=
  ∃ r c r' c', G.Cell i r c ∧ G.Cell j r' c' ∧ Across r c r' c' ∧
    ∀ k r'' c'', G.Cell k r'' c'' → Across r c r'' c'' → ¬ Across r'' c'' r' c'

/-- `j` comes directly behind `i` along the columns. -/
def Grid.NextDown (G : Grid) (i j : Int) : Prop :=
  ∃ r c r' c', G.Cell i r c ∧ G.Cell j r' c' ∧ Across c r c' r' ∧
    ∀ k r'' c'', G.Cell k r'' c'' → Across c r c'' r'' → ¬ Across c'' r'' c' r'

/-- Nothing comes behind `i` along the rows. -/
def Grid.LastAcross (G : Grid) (i : Int) : Prop :=
  ∃ r c, G.Cell i r c ∧ ∀ k r'' c'', G.Cell k r'' c'' → ¬ Across r c r'' c''

/-- Nothing comes behind `i` along the columns. -/
def Grid.LastDown (G : Grid) (i : Int) : Prop :=
  ∃ r c, G.Cell i r c ∧ ∀ k r'' c'', G.Cell k r'' c'' → ¬ Across c r c'' r''

/-- Where column `c` begins. -/
def start (pad : Int) : List Int → Nat → Int
  | _, 0 => 0
  | [], _ + 1 => 0
  | w :: ws, c + 1 => w + pad + start pad ws c

/-- Column `c` is at the position `p0` of a row; the last column goes on to the right. -/
def Under (ws : List Int) (pad p0 : Int) (c : Nat) : Prop :=
  start pad ws c ≤ p0 ∧ ((∃ w, ws[c]? = some w ∧ p0 < start pad ws c + w) ∨ c + 1 = ws.length)

end Clink.Menu.Spec

namespace Clink.Menu
open Spec

/-- The grid of a state. -/
def gridOf (g : Cfg) (s : St) : Grid :=
  { horizontal := g.horizontal, count := s.count, rows := s.matchRows, cols := s.matchCols }

/-- What is needed of the columns: there are some, and there are not more than matches when the list is horizontal. -/
structure ItemsOk (g : Cfg) (it : Items) : Prop where
  count : 1 ≤ it.count
  some : ∀ a b, (it.columns a b).list ≠ []
  widths : ∀ a b, ∀ w ∈ (it.columns a b).list, 0 ≤ w
  padding : ∀ a b, 0 ≤ (it.columns a b).padding
  few : g.horizontal = true → ∀ a b, (it.columns a b).list.length ≤ it.count

/-- What is assumed about input: the mouse is on the terminal, and the line is not higher or lower when the text changes
(otherwise see `C53_typed_violated`). -/
def Valid (g : Cfg) (s : St) : Input → Prop
  | .mouse _ p0 _ _ speed => 0 ≤ p0 ∧ p0 < s.screenCols ∧ 0 ≤ speed
  | .typed it => (1 ≤ it.count → ItemsOk g it) ∧ it.botlin 0 = s.visBotlin
  | _ => True

/-- The line is as high whichever match is in it. -/
def Steady (s : St) : Prop := ∀ i, 0 ≤ i → i < s.count → s.it.botlin i = s.visBotlin

/-- The mouse input is not one that the list handles badly. -/
def TameMouse (g : Cfg) (s : St) (b : Button) (p0 p1 : Int) : Prop :=
  (s.expanded = true ∧ s.widths.list.length ≤ s.matchCols) ∨
  (s.expanded = false ∧ s.top = 0 ∧ (barState s b p0 p1).barClicked = false ∧
    ∀ i, hitColumn s.screenCols s.widths.padding (minor g s) false p0 s.widths.list 0 (major g s * p1) = some i → i < s.count)

/-- Input for which the screen is right. -/
def Calm (g : Cfg) (s : St) : Input → Prop
  | .mouse b p0 p1 _ _ => TameMouse g s b p0 p1
  | .typed it => ∀ i : Int, 0 ≤ i → i < it.count → it.botlin i = s.visBotlin
  | .resize .. => False
  | _ => True

/-- Everything that can be reached. -/
inductive Reach (g : Cfg) : St → Prop
  | start {it : Items} {c r b : Int} {yes : Bool} {s : St} (hi : ItemsOk g it) (h : activate g it c r b yes = some s) : Reach g s
  | step {s r : St} {i : Input} (hr : Reach g s) (hv : Valid g s i) (h : step g s i = some r) : Reach g r

/-- What can be reached without input that the list handles badly. -/
inductive CalmReach (g : Cfg) : St → Prop
  | start {it : Items} {c r b : Int} {yes : Bool} {s : St} (hi : ItemsOk g it)
      (hb : ∀ i : Int, 0 ≤ i → i < it.count → it.botlin i = b) (h : activate g it c r b yes = some s) : CalmReach g s
  | step {s r : St} {i : Input} (hr : CalmReach g s) (hv : Valid g s i) (hc : Calm g s i) (h : step g s i = some r) : CalmReach g r

end Clink.Menu
