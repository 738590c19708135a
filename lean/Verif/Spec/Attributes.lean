import Verif.Model.Attributes

/-! What escape sequences for attributes mean, and what text should look like. -/

namespace Clink.Attributes.Spec

/-- A colour: that of the console, one of the 16, or red, green and blue with 5 bits each. -/
inductive Colour
  | default
  | index (n : Nat)
  | rgb (r g b : Nat)
  deriving DecidableEq, Repr

structure Look where
  fg : Colour := .default
  bg : Colour := .default
  bold : Bool := false
  underline : Bool := false
  reverse : Bool := false
  deriving DecidableEq, Repr

/-- The colour that a value means. -/
def colour (c : BitVec 16) : Colour :=
  if c = 231 then .default else if c.toNat < 32768 then .index c.toNat else .rgb (c.toNat % 32) (c.toNat / 32 % 32) (c.toNat / 1024 % 32)

/-- What is set replaces what was there. -/
def over (l : Look) (a : Attr) : Look where
  fg := if a.hasFg then colour a.fg else l.fg
  bg := if a.hasBg then colour a.bg else l.bg
  bold := if a.hasBold then a.bold else l.bold
  underline := if a.hasUnderline then a.underline else l.underline
  reverse := if a.hasReverse then a.reverse else l.reverse

/-- Everything is set. -/
def Full (a : Attr) : Prop := a.hasFg = true ∧ a.hasBg = true ∧ a.hasBold = true ∧ a.hasUnderline = true ∧ a.hasReverse = true

/-- Codes of one number. -/
inductive Code : Nat → Look → Look → Prop
  | reset {l} : Code 0 l {}
  | bold {l} : Code 1 l { l with bold := true }
  | dim {l} : Code 2 l { l with bold := false }
  | nobold {l} : Code 22 l { l with bold := false }
  | underline {l} : Code 4 l { l with underline := true }
  | nounderline {l} : Code 24 l { l with underline := false }
  | reverse {l} : Code 7 l { l with reverse := true }
  | noreverse {l} : Code 27 l { l with reverse := false }
  | fg {n l} : n < 8 → Code (30 + n) l { l with fg := .index n }
  | brightFg {n l} : n < 8 → Code (90 + n) l { l with fg := .index (8 + n) }
  | defaultFg {l} : Code 39 l { l with fg := .default }
  | bg {n l} : n < 8 → Code (40 + n) l { l with bg := .index n }
  | brightBg {n l} : n < 8 → Code (100 + n) l { l with bg := .index (8 + n) }
  | defaultBg {l} : Code 49 l { l with bg := .default }
  | other {p l} : p ∉ [0, 1, 2, 22, 4, 24, 7, 27, 39, 49] → ¬ (30 ≤ p ∧ p < 38) → ¬ (90 ≤ p ∧ p < 98) → ¬ (40 ≤ p ∧ p < 48) → ¬ (100 ≤ p ∧ p < 108) → p ≠ 38 → p ≠ 48 → Code p l l

/-- The levels of the 6 × 6 × 6 colours. -/
def level (k : Nat) : Nat := if k = 0 then 0 else 55 + 40 * k

/-- The 256 colours. -/
inductive Palette : Nat → Colour → Prop
  | base {n} : n < 16 → Palette n (.index n)
  | cube {r g b} : r < 6 → g < 6 → b < 6 → Palette (16 + 36 * r + 6 * g + b) (.rgb (level r / 8) (level g / 8) (level b / 8))
  | grey {k} : k < 24 → Palette (232 + k) (.rgb ((8 + 10 * k) / 8) ((8 + 10 * k) / 8) ((8 + 10 * k) / 8))

def paint (p : Nat) (c : Colour) (l : Look) : Look := if p = 38 then { l with fg := c } else { l with bg := c }

/-- A sequence of codes.  Only the lowest 8 bits of colour numbers count; a sequence that ends within a colour ends there. -/
inductive Sgr : List Nat → Look → Look → Prop
  | done {l} : Sgr [] l l
  | code {p r l m n} : Code p l m → Sgr r m n → Sgr ([p] ++ r) l n
  | index {p x c r l n} : (p = 38 ∨ p = 48) → Palette (x % 256) c → Sgr r (paint p c l) n → Sgr ([p, 5, x] ++ r) l n
  | rgb {p x y z r l n} : (p = 38 ∨ p = 48) → Sgr r (paint p (.rgb (x % 256 / 8) (y % 256 / 8) (z % 256 / 8)) l) n → Sgr ([p, 2, x, y, z] ++ r) l n
  | unknown {p t r l n} : (p = 38 ∨ p = 48) → t ≠ 2 → t ≠ 5 → Sgr r l n → Sgr ([p, t] ++ r) l n
  | cut {p r l} : (p = 38 ∨ p = 48) → (r = [] ∨ r = [5] ∨ ∃ s, s.length < 3 ∧ r = [2] ++ s) → Sgr ([p] ++ r) l l

/-- A decimal number. -/
def value (d : List Nat) : Nat := d.foldl (fun n c => n * 10 + (c - 48)) 0

/-- The numbers between semicolons; colons do not count. -/
def fields : List Nat → List (List Nat)
  | [] => [[]]
  | c :: r => if c = 59 then [] :: fields r else match fields r with | [] => [[c]] | f :: fs => (if c = 58 then f else c :: f) :: fs

/-- The parameters of a sequence. -/
def numbers (body : List Nat) : List Nat := if body = [] then [] else ((fields body).map value).take 32

/-- No parameters mean a reset. -/
def Sequence (body : List Nat) (l m : Look) : Prop := (numbers body = [] ∧ m = {}) ∨ (numbers body ≠ [] ∧ Sgr (numbers body) l m)

/-- What the terminal shows: each text with how it looks. -/
inductive Shows : Look → List Out → List (Look × List Nat) → Look → Prop
  | done {l} : Shows l [] [] l
  | text {l d o t m} : Shows l o t m → Shows l ([.text d] ++ o) ([(l, d)] ++ t) m
  | seq {l b l' o t m} : Sequence b l l' → Shows l' o t m → Shows l ([.seq b] ++ o) t m

/-- What is asked of the printer. -/
inductive Op
  | set (a : Attr)
  | print (data : List Nat)
  | printAttr (a : Attr) (data : List Nat)
  | printText (attr data : List Nat)

/-- What should be shown. -/
inductive Wants : Look → List Op → List (Look × List Nat) → Look → Prop
  | done {l} : Wants l [] [] l
  | set {l a r t m} : Wants (over l a) r t m → Wants l ([.set a] ++ r) t m
  | print {l d r t m} : Wants l r t m → Wants l ([.print d] ++ r) ((if d = [] then [] else [(l, d)]) ++ t) m
  | printAttr {l a d r t m} : Wants l r t m → Wants l ([.printAttr a d] ++ r) ((if d = [] then [] else [(over l a, d)]) ++ t) m
  | printText {l s d l' r t m} : Sequence s l l' → Wants l r t m → Wants l ([.printText s d] ++ r) ((if d = [] then [] else [(l', d)]) ++ t) m

def Colour.Basic : Colour → Prop
  | .default => True
  | .index n => n < 16
  | .rgb .. => False

/-- Both are bold, or both are underlined, and the colours become the default ones. -/
def Lost (l m : Look) : Prop := m.fg = .default ∧ m.bg = .default ∧ (l.bold = true ∧ m.bold = true ∨ l.underline = true ∧ m.underline = true)

/-- What the printer can do: the 16 colours, not reversed, and bold or underlined only with a colour. -/
def Tame (l : Look) : Prop := l.fg.Basic ∧ l.bg.Basic ∧ l.reverse = false ∧ (l.fg = .default → l.bg = .default → l.bold = false ∧ l.underline = false)

/-- The looks are like this.  Sequences given as text are only used for text that is otherwise plain; once one was used (`nd`), for any that are not reversed. -/
inductive AllTame : Bool → Look → List Op → Prop
  | done {nd l} : AllTame nd l []
  | set {nd l a r} : Tame (over l a) → AllTame nd (over l a) r → AllTame nd l ([.set a] ++ r)
  | print {nd l d r} : AllTame nd l r → AllTame nd l ([.print d] ++ r)
  | printAttr {nd l a d r} : Tame (over l a) → AllTame nd l r → AllTame nd l ([.printAttr a d] ++ r)
  | printText {nd l s d l' r} : Sequence s l l' → l = {} ∨ nd = true ∧ l'.reverse = false → AllTame true l r → AllTame nd l ([.printText s d] ++ r)

/-- The printer after calls, and what it has written. -/
def perform : Printer → List Op → Printer × List Out
  | p, [] => (p, [])
  | p, .set a :: r => perform (p.setAttributes a).1 r
  | p, .print d :: r => let q := perform (p.print d).1 r; (q.1, (p.print d).2 ++ q.2)
  | p, .printAttr a d :: r => let q := perform (p.printAttr a d).1 r; (q.1, (p.printAttr a d).2 ++ q.2)
  | p, .printText s d :: r => let q := perform (p.printText s d).1 r; (q.1, (p.printText s d).2 ++ q.2)

/-! The console. -/

/-- Red and blue are exchanged. -/
def dos (n : Nat) : Nat := n / 8 * 8 + n % 2 * 4 + n / 2 % 2 * 2 + n / 4 % 2

/-- The number of a colour on the console; `dflt` is that of the default colour. -/
inductive Number (best : Nat × Nat × Nat → Option (BitVec 8)) (dflt : Nat) : Colour → Nat → Prop
  | default : Number best dflt .default dflt
  | index {n} : n < 16 → Number best dflt (.index n) (dos n)
  | rgb {r g b n} : best (r * 8 + r % 8, g * 8 + g % 8, b * 8 + b % 8) = some n → n.toNat < 16 → Number best dflt (.rgb r g b) (dos n.toNat)

/-- The attributes of the console for a look, given those of default text. -/
def Word (best : Nat × Nat × Nat → Option (BitVec 8)) (dflt : Nat) (l : Look) (w : Nat) : Prop :=
  ∃ f b, Number best (dflt % 16) l.fg f ∧ Number best (dflt / 16 % 16) l.bg b ∧ w < 65536 ∧
    w % 16 = (if l.reverse then b else if l.bold ∧ f < 8 then f + 8 else f) ∧
    w / 16 % 16 = (if l.reverse then if l.bold ∧ f < 8 then f + 8 else f else b) ∧
    w / 32768 = if l.underline then 1 else 0

/-- The console shows a look. -/
def On (best : Nat × Nat × Nat → Option (BitVec 8)) (dflt : Nat) (s : Console) (l : Look) : Prop := Word best dflt l s.word ∧ s.bold = l.bold ∧ s.reverse = l.reverse

/-- The console can show a look: its colours are found, and it is not both underlined and reversed. -/
def Fine (best : Nat × Nat × Nat → Option (BitVec 8)) (l : Look) : Prop := (∃ n, Number best 0 l.fg n) ∧ (∃ n, Number best 0 l.bg n) ∧ ¬ (l.reverse = true ∧ l.underline = true)

/-- The escape sequences are short and the looks can be shown; when a text is bold, the next sequence begins with a reset. -/
inductive Calm (best : Nat × Nat × Nat → Option (BitVec 8)) : Look → List Out → Prop
  | done {l} : Calm best l []
  | text {l d o} : Calm best l o → Calm best l ([.text d] ++ o)
  | seq {l b m o} : (∀ c ∈ b, 48 ≤ c ∧ c ≤ 59) → (∀ x ∈ fields b, value x ≤ 2147483647) → (l.bold = false ∨ numbers b = [] ∨ (numbers b).head? = some 0) → Sequence b l m → Fine best m → Calm best m o →
    Calm best l ([.seq b] ++ o)

/-- Text is bold only when the text around it is plain, and the console can show what is given as text. -/
inductive AllCalm (best : Nat × Nat × Nat → Option (BitVec 8)) : Look → List Op → Prop
  | done {l} : AllCalm best l []
  | set {l a r} : (over l a).bold = false → AllCalm best (over l a) r → AllCalm best l ([.set a] ++ r)
  | print {l d r} : AllCalm best l r → AllCalm best l ([.print d] ++ r)
  | printAttr {l a d r} : (over l a).bold = false ∨ l = {} → AllCalm best l r → AllCalm best l ([.printAttr a d] ++ r)
  | printText {l s d l' r} : (∀ c ∈ s, 48 ≤ c ∧ c ≤ 59) → (∀ x ∈ fields s, value x ≤ 2147483647) → Sequence s l l' → Fine best l' → l'.bold = false ∨ l = {} → AllCalm best l r →
    AllCalm best l ([.printText s d] ++ r)

end Clink.Attributes.Spec
