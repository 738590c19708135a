import Verif.Model.Columns

/-!
What a layout of matches in columns has to be.
-/

namespace Clink.Columns.Spec

/-- The width of a row of columns with `pad` cells between them. -/
def total (ws : List Nat) (pad : Nat) : Nat := ws.sum + pad * (ws.length - 1)

/-- The cells of the text of a match or of the text shown instead of it. -/
def full (g : Cfg) (x : Item) : Nat :=
  g.extra + (if x.useDisplay then (if x.append then x.printable else 0) + x.display else x.printable)

/-- Is the prefix common to all matches abbreviated in what is shown?  Not if it is the whole match, and not in a text
that is shown instead of the match without being known to contain it. -/
def Condensed (g : Cfg) (x : Item) : Prop :=
  x.longer = true ∧ ¬ (x.useDisplay = true ∧ x.append = false ∧ g.presuf = false)

instance (g : Cfg) (x : Item) : Decidable (Condensed g x) := by unfold Condensed; infer_instance

/-- The cells a match takes. -/
def shown (g : Cfg) (x : Item) : Nat := if Condensed g x then full g x - g.condense else full g x

/-- The cells a description takes, with what is put between it and the match; not more than 1024 cells are provided for
the description. -/
def described (g : Cfg) (x : Item) : Nat :=
  if g.descs ∧ x.desc ≠ 0 then min 1024 x.desc + 4 else 0

/-- Widths are those of a console and of matches that are not absurdly long; and abbreviating the common prefix does not
save more than there is. -/
structure Small (g : Cfg) (l : List Item) : Prop where
  screen : g.screen ≤ 32767
  item : ∀ x ∈ l, g.extra + x.printable + x.display ≤ 30000
  condense : ∀ x ∈ l, Condensed g x → g.condense ≤ full g x

/-- Match `k` is printed in row `i` and column `c`. -/
def At (rows : List (List Nat)) (i c k : Nat) : Prop := ∃ r, rows[i]? = some r ∧ r[c]? = some k

/-- Columns of widths `ws` have room for all matches, when the matches are printed in as many columns.  If descriptions
are not right justified they begin at the same cell in a column: `ms` are the widths for the matches. -/
structure Room (g : Cfg) (l : List Item) (ms ws : List Nat) : Prop where
  length : ms.length = ws.length
  order : ∀ (c m w : Nat), ms[c]? = some m → ws[c]? = some w → 1 ≤ m ∧ m ≤ w
  room : ∀ (i c k : Nat) (x : Item) (m w : Nat), At (rowsOf g.vertical l.length ws.length) i c k → l[k]? = some x →
    ms[c]? = some m → ws[c]? = some w →
    if g.descs = true ∧ l.any (·.aligned) = false then shown g x + described g x ≤ w
    else shown g x ≤ m ∧ m + described g x ≤ w

/-- Where column `c` begins. -/
def startOf (ws : List Nat) (pad c : Nat) : Nat := (ws.take c).sum + pad * c

/-- What `ellipsify` does to the widths of the descriptions: a text that fits is kept, and a text that does not is made
to fit if there is room for an ellipsis. -/
structure Ellipsifies (ell : Nat → Int → Nat) (l : List Item) : Prop where
  keep : ∀ (i : Nat) (x : Item) (n : Int), l[i]? = some x → x.desc ≤ n → ell i n = x.desc
  limit : ∀ (i : Nat) (n : Int), 1 ≤ n → ell i n ≤ n

end Clink.Columns.Spec
