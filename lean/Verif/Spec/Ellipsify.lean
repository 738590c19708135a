import Verif.Model.Ellipsify
import Verif.Spec.Ecma48

/-!
What fitting text into a number of cells should do.  Text is a list of characters (code points); `flat` is UTF-8.
-/

namespace Clink.Ellipsify.Spec

open Doskey.Spec (flat)
open Ecma48.Spec (Code Printable Stop)

variable (env : Env)

/-- The first character has a property. -/
def Starts (p : Nat → Prop) (l : List Nat) : Prop := ∃ c, l.head? = some c ∧ p c

/-- Regional indicators. -/
def Flag (c : Nat) : Prop := 0x1f1e6 ≤ c ∧ c ≤ 0x1f1ff

/-- Characters that can follow a joiner. -/
def Joined (c : Nat) : Prop := env.emoji c ∨ env.unq c ∨ c = 0x2640 ∨ c = 0x2642

/-- Characters that belong to what is before them. -/
def Extends (c : Nat) : Prop := env.wc c = 0 ∨ env.color ∧ env.variant c

/-- What goes on behind an emoji: selectors, and joiners with the emoji that follow them, as many as there are. -/
inductive Sequence : List Nat → List Nat → Prop
  | stop {rest} : ¬ Starts (fun c => env.variant c ∨ c = 0x200d) rest → Sequence [] rest
  | selector {c w rest} : env.variant c → Sequence w rest → Sequence (c :: w) rest
  | joined {c w rest} : ¬ env.variant 0x200d → Joined env c → Sequence w rest → Sequence (0x200d :: c :: w) rest
  | joiner {rest} : ¬ env.variant 0x200d → ¬ Starts (Joined env) rest → Sequence [0x200d] rest

/-- A character as it is seen, what follows it, and its width (negative for a control character). -/
inductive Glyph : List Nat → List Nat → Int → Prop
  | ctrl {c rest} : env.wc c < 0 → Glyph [c] rest (env.wc c)
  | flags {c d rest} : env.color → 0 < env.wc c → Flag c → Flag d → Glyph [c, d] rest 2
  | emoji {c w rest n} : env.color → 0 < env.wc c → ¬ (Flag c ∧ Starts Flag (w ++ rest)) → env.emoji c ∨ env.unq c ∨ env.variant c →
      Sequence env w rest →
      (w ≠ [] ∨ c ∈ [0x3030, 0x303d, 0x3297, 0x3299] ∨ ¬ (env.emoji c ∨ env.unq c) → n = max (env.wc c) 2) →
      (w = [] → c ∉ [0x3030, 0x303d, 0x3297, 0x3299] → env.emoji c ∨ env.unq c → n = env.wc c) → Glyph (c :: w) rest n
  | plain {c w rest n} : 0 ≤ env.wc c →
      (env.color → env.wc c ≠ 0 → ¬ (Flag c ∧ Starts Flag (w ++ rest)) ∧ ¬ env.emoji c ∧ ¬ env.unq c ∧ ¬ env.variant c) →
      (∀ z ∈ w, Extends env z) → ¬ Starts (Extends env) rest →
      ((∃ z ∈ w, env.wc z ≠ 0) → n = max (env.wc c) 2) → ((∀ z ∈ w, env.wc z = 0) → n = env.wc c) → Glyph (c :: w) rest n

/-- The characters of a text without control codes. -/
inductive Glyphs : List Nat → List (List Nat × Int) → Prop
  | nil : Glyphs [] []
  | cons {w rest n gs} : Glyph env w rest n → Glyphs rest gs → Glyphs (w ++ rest) ((w, n) :: gs)

/-- A control code, or a character with its width. -/
inductive Item
  | code (w : List Nat)
  | glyph (w : List Nat) (n : Int)
  deriving DecidableEq

/-- The codes and characters of a text all of whose codes are complete. -/
inductive Doc : List Nat → List Item → Prop
  | nil : Doc [] []
  | code {k x w rest is} : Code k x w → Doc rest is → Doc (w ++ rest) (.code w :: is)
  | text {cs rest gs is} : cs ≠ [] → (∀ c ∈ cs, Printable c) → Stop rest → Glyphs env cs gs → Doc rest is →
      Doc (cs ++ rest) (gs.map (fun g => .glyph g.1 g.2) ++ is)

def Item.text : Item → List Nat
  | .code w => w
  | .glyph w _ => w

def Item.isGlyph : Item → Bool
  | .code _ => false
  | .glyph _ _ => true

/-- The cells of an item; control characters have one cell, or two if they are shown as `^A`. -/
def Item.cells (expand : Bool) : Item → Int
  | .code _ => 0
  | .glyph _ n => if n < 0 then if expand then 2 else 1 else n

/-- The width of a text. -/
def width (expand : Bool) (is : List Item) : Int := (is.map (Item.cells expand)).sum

/-- The characters of some items. -/
def text (is : List Item) : List Nat := (is.map Item.text).flatten

/-- The codes among some items. -/
def codes (is : List Item) : List Item := is.filter fun i => !i.isGlyph

/-- A character of its own, whatever is around it. -/
structure Plain (c : Nat) : Prop where
  text : Utf.IsText c
  printable : Printable c
  wide : 0 < env.wc c
  flag : ¬ Flag c
  emoji : ¬ env.emoji c
  unq : ¬ env.unq c
  variant : ¬ env.variant c
  joiner : c ≠ 0x200d
  sign : c ≠ 0x2640 ∧ c ≠ 0x2642

/-- The width of plain characters. -/
def plainWidth (cs : List Nat) : Int := (cs.map env.wc).sum

/-- No variant selectors, as far as they matter. -/
def NoVariant (cs : List Nat) : Prop := env.color → ∀ c ∈ cs, env.variant c = false

/-- A text all of whose codes are complete, with its codes and characters; it has at most 65471 bytes. -/
structure Clean (cs : List Nat) (is : List Item) : Prop where
  doc : Doc env cs is
  text : ∀ c ∈ cs, Utf.IsText c
  size : (flat cs).length ≤ 65471

/-- The ellipsis `el` consists of plain characters and is given as the argument `o`; without an argument it is `…`. -/
structure Marker (el : List Nat) (o : Option (List Nat)) : Prop where
  plain : ∀ c ∈ el, Plain env c
  size : (flat el).length ≤ 65471
  arg : o = some (flat el) ∨ o = none ∧ el = [0x2026] ∧ env.wc 0x2026 = 1

/-- `e` is the beginning of the ellipsis `el` that fits in `room` cells. -/
def Fitting (el : List Nat) (room : Int) (e : List Nat) : Prop :=
  ∃ more, el = e ++ more ∧ plainWidth env e ≤ max room 0 ∧ ∀ c r, more = c :: r → room < plainWidth env e + env.wc c

/-- The text is cut before the character `g`, and this is the first one behind which there is no room for the ellipsis. -/
structure CutRight (expand : Bool) (is : List Item) (limit : Int) (el : List Nat) (before after : List Item) (g : Item) : Prop where
  split : is = before ++ g :: after
  glyph : g.isGlyph
  full : width expand before + g.cells expand > limit - plainWidth env el
  room : width expand before ≤ limit - plainWidth env el ∨ ∀ i ∈ before, i.isGlyph = false

/-- The same from the right. -/
structure CutLeft (expand : Bool) (is : List Item) (limit : Int) (el : List Nat) (before after : List Item) (g : Item) : Prop where
  split : is = before ++ g :: after
  glyph : g.isGlyph
  full : width expand after + g.cells expand > limit - plainWidth env el
  room : width expand after ≤ limit - plainWidth env el ∨ ∀ i ∈ after, i.isGlyph = false

/-- The codes of a text, and its characters one by one. -/
def units (is : List Item) : List (List Nat ⊕ Nat) :=
  is.flatMap fun i => match i with
    | .code w => [.inl w]
    | .glyph w _ => w.map .inr

def unitText (us : List (List Nat ⊕ Nat)) : List Nat := us.flatMap fun u => match u with
  | .inl w => w
  | .inr c => [c]

/-- The characters without the codes. -/
def visible (us : List (List Nat ⊕ Nat)) : List Nat := us.filterMap fun u => match u with
  | .inl _ => none
  | .inr c => some c

def Letter (c : Nat) : Prop := 97 ≤ c ∧ c ≤ 122 ∨ 65 ≤ c ∧ c ≤ 90

/-- The text starts with a letter, a colon, and something else: `d` is what is before the third character, codes
included, and `r` is the rest. -/
def DriveOf (is : List Item) (c : Nat) (d r : List Nat) : Prop :=
  ∃ us z vs, units is = us ++ .inr z :: vs ∧ visible us = [c, 58] ∧ Letter c ∧ d = unitText us ∧ r = unitText (.inr z :: vs)

/-- How a path is divided: `n` is the width of the drive. -/
def PathSplit (is : List Item) (d r : List Nat) (n : Int) : Prop :=
  (∃ c, DriveOf is c d r ∧ n = env.wc c + env.wc 58) ∨ (¬ ∃ c d r, DriveOf is c d r) ∧ d = [] ∧ r = text is ∧ n = 0

end Clink.Ellipsify.Spec
