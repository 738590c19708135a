import Verif.Model.Redraw
import Verif.Spec.Display

/-!
What redrawing a row of the screen should do.  The terminal is described by a relation: what happens to characters that are cut
is left open.
-/

namespace Clink.Redraw.Spec

open Doskey.Spec (flat)
open Ellipsify (Env)
open Ellipsify.Spec (Glyphs)
open Display (Row)

/-- A cell of the screen: blank, or a part of a character with its faces, which has `n` cells. -/
inductive Cell
  | blank
  | part (glyph : Text) (k n : Nat)
  deriving DecidableEq, Repr

/-- The cells of a character.  A space with the normal face looks like a blank cell. -/
def cells (t : Text) (n : Nat) : List Cell := if t = [(32, 48)] then List.replicate n .blank else (List.range n).map fun k => .part t k n

/-- The bytes with faces that belong to each character, with its width. -/
def split : List (List Nat × Int) → Text → List (Text × Int)
  | [], _ => []
  | (w, n) :: gs, t => (t.take (flat w).length, n) :: split gs (t.drop (flat w).length)

/-- A text without control characters, and its characters as they are seen. -/
def Seen (env : Env) (t : Text) (gs : List (Text × Int)) : Prop :=
  ∃ cs ws, bytes t = flat cs ∧ (∀ c ∈ cs, Utf.IsText c ∧ 0x20 ≤ c ∧ c ≠ 0x7f) ∧ Glyphs env cs ws ∧ gs = split ws t

/-- A text, and the cells that show it.  All characters have a width. -/
def Drawn (env : Env) (t : Text) (l : List Cell) : Prop :=
  ∃ gs, Seen env t gs ∧ (∀ g ∈ gs, 0 < g.2) ∧ l = gs.flatMap fun g => cells g.1 g.2.toNat

/-- All of a character has the same face. -/
def OneFace (env : Env) (t : Text) : Prop := ∀ gs, Seen env t gs → ∀ g ∈ gs, ∀ p ∈ g.1, ∀ q ∈ g.1, p.2 = q.2

/-- No character is cut. -/
inductive Whole : List Cell → Prop
  | nil : Whole []
  | blank {l} : Whole l → Whole (.blank :: l)
  | glyph {l} (t : Text) (n : Nat) : Whole l → Whole (((List.range n).map fun k => .part t k n) ++ l)

/-- Whatever is not cut stays as it is; anything can become of characters that are cut. -/
def Mends (l l' : List Cell) : Prop :=
  l'.length = l.length ∧ ∀ a b c, l = a ++ b ++ c → Whole b → ∃ a' c', l' = a' ++ b ++ c' ∧ a'.length = a.length

/-- A row of the screen, and the column of the cursor, which is behind the last column if text ends there. -/
structure Screen where
  cells : List Cell
  col : Nat

/-- What the terminal does. -/
inductive Step (env : Env) : Op → Screen → Screen → Prop
  | col {s c} : c < s.cells.length → Step env (.col c) s ⟨s.cells, c⟩
  | insert {a b c a' b' n} : Mends a a' → Mends b b' → c.length = n → Step env (.insert n) ⟨a ++ b ++ c, a.length⟩ ⟨a' ++ List.replicate n .blank ++ b', a.length⟩
  | delete {a b c a' c' n} : Mends a a' → Mends c c' → b.length = n → Step env (.delete n) ⟨a ++ b ++ c, a.length⟩ ⟨a' ++ c' ++ List.replicate n .blank, a.length⟩
  | put {a b c a' c' t l} : Drawn env t l → Mends a a' → Mends c c' → b.length = l.length →
      Step env (.put t) ⟨a ++ b ++ c, a.length⟩ ⟨a' ++ l ++ c', a.length + l.length⟩
  | spaces {a b c a' c' n} : Mends a a' → Mends c c' → b.length = n →
      Step env (.spaces n) ⟨a ++ b ++ c, a.length⟩ ⟨a' ++ List.replicate n .blank ++ c', a.length + n⟩
  | clear {a b a'} : Mends a a' → b ≠ [] → Step env .clear ⟨a ++ b, a.length⟩ ⟨a' ++ List.replicate b.length .blank, a.length⟩

inductive Steps (env : Env) : List Op → Screen → Screen → Prop
  | nil {s} : Steps env [] s s
  | cons {op ops s s' s''} : Step env op s s' → Steps env ops s' s'' → Steps env (op :: ops) s s''

/-- A row as it is laid out: its text takes the cells from `x` to `lastcol`, and then there are `trail` spaces. -/
structure Fits (env : Env) (W : Nat) (r : Row) : Prop where
  drawn : ∃ l, Drawn env r.text l ∧ r.x + l.length = r.lastcol + r.trail
  trail : ∃ t, r.text = t ++ List.replicate r.trail (32, 48)
  room : r.lastcol + r.trail ≤ W

/-- The row is shown on the screen behind the prompt `p`. -/
def Shows (env : Env) (W : Nat) (p : List Cell) (r : Row) (l : List Cell) : Prop :=
  p.length = r.x ∧ l.length = W ∧ ∃ t n, Drawn env r.text t ∧ l = p ++ t ++ List.replicate n .blank

/-- What there is on the screen before the row `d` is drawn where the row `o` was; the prompt `p` has been written already, perhaps over a part of
the old row. -/
def Before (env : Env) (W : Nat) (p : List Cell) (o : Option Row) (d : Row) (l : List Cell) : Prop :=
  p.length = d.x ∧ Whole p ∧ l.length = W ∧
    match o with
    | none => ∃ r, l = p ++ r
    | some o =>
      if d.x ≤ o.x then ∃ q t n, Drawn env o.text t ∧ l = p ++ q ++ t ++ List.replicate n .blank ∧ p.length + q.length = o.x
      else ∃ r n, l = p ++ r ++ List.replicate n .blank ∧ r.length = o.lastcol - d.x

/-- Printable ASCII characters have one cell, and do not belong to what is before them. -/
def Ascii (env : Env) : Prop := ∀ c, 0x20 ≤ c → c < 0x7f → Ellipsify.Spec.Plain env c ∧ env.wc c = 1

/-- Two spaces with the normal face follow each other. -/
def TwoSpaces (t : Text) : Prop := ∃ a b, t = a ++ (32, 48) :: (32, 48) :: b

/-- Characters with a width, and newlines that go to the next row. -/
def Wide (lf : Bool) (gs : List (List Nat × Int)) : Prop := ∀ g ∈ gs, 0 < g.2 ∧ g.1 ≠ [10] ∨ lf = true ∧ g.1 = [10]

/-- A newline is a control character and nothing else. -/
structure Newline (env : Env) : Prop where
  ctrl : env.wc 10 < 0
  variant : ¬ env.variant 10
  emoji : ¬ env.emoji 10
  unq : ¬ env.unq 10

/-- The cells of characters of their own. -/
def plainCols (env : Env) (cs : List Nat) : Nat := (cs.map fun c => (env.wc c).toNat).sum

/-- A text of characters of their own. -/
def PlainText (env : Env) (t : Text) (cs : List Nat) : Prop := bytes t = flat cs ∧ ∀ c ∈ cs, Ellipsify.Spec.Plain env c ∧ c ≠ 0x7f

end Clink.Redraw.Spec
