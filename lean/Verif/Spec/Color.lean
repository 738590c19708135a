import Verif.Model.Color

/-! What descriptions of colours and SGR codes mean. -/

namespace Clink.Color.Spec

/-- The words of a text. -/
inductive Words (sep : Nat) : List Nat → List (List Nat) → Prop where
  | nil : Words sep [] []
  | sep {t ws} (h : Words sep t ws) : Words sep (sep :: t) ws
  | word {w t ws} (hne : w ≠ []) (hw : sep ∉ w) (ht : t = [] ∨ t.head? = some sep) (h : Words sep t ws) : Words sep (w ++ t) (w :: ws)

def Ascii (l : List Nat) : Prop := ∀ c ∈ l, 0 < c ∧ c < 128

inductive Colour where
  | default
  | basic (n : Nat)
  | rgb (r g b : Nat)
  deriving DecidableEq, Repr

/-- What is switched on in a terminal. -/
structure Attr where
  reverse : Bool := false
  bold : Bool := false
  italic : Bool := false
  underline : Bool := false
  fg : Colour := .default
  bg : Colour := .default
  deriving DecidableEq, Repr

/-- One parameter of "Select Graphic Rendition"; those that are not listed change other things. -/
def one (n : Nat) (a : Attr) : Attr :=
  if n = 0 then {}
  else if n = 1 then { a with bold := true }
  else if n = 3 then { a with italic := true }
  else if n = 4 then { a with underline := true }
  else if n = 7 then { a with reverse := true }
  else if n = 22 then { a with bold := false }
  else if n = 23 then { a with italic := false }
  else if n = 24 then { a with underline := false }
  else if n = 27 then { a with reverse := false }
  else if 30 ≤ n ∧ n ≤ 37 then { a with fg := .basic (n - 30) }
  else if n = 39 then { a with fg := .default }
  else if 40 ≤ n ∧ n ≤ 47 then { a with bg := .basic (n - 40) }
  else if n = 49 then { a with bg := .default }
  else if 90 ≤ n ∧ n ≤ 97 then { a with fg := .basic (n - 90 + 8) }
  else if 100 ≤ n ∧ n ≤ 107 then { a with bg := .basic (n - 100 + 8) }
  else a

/-- All parameters. -/
def apply : List Nat → Attr → Attr
  | 38 :: 2 :: r :: g :: b :: l, a => apply l { a with fg := .rgb r g b }
  | 48 :: 2 :: r :: g :: b :: l, a => apply l { a with bg := .rgb r g b }
  | n :: l, a => apply l (one n a)
  | [], a => a

/-- A number in decimal digits. -/
def Decimal (w : List Nat) (n : Nat) : Prop := w ≠ [] ∧ (∀ c ∈ w, 48 ≤ c ∧ c ≤ 57) ∧ w.foldl (fun x c => 10 * x + (c - 48)) 0 = n

/-- Parameters that are separated by semicolons. -/
inductive Params : List Nat → List Nat → Prop where
  | last {w n} (h : Decimal w n) : Params w [n]
  | more {w n t ns} (h : Decimal w n) (ht : Params t ns) : Params (w ++ 59 :: t) (n :: ns)

/-- As a terminal reads parameters: one that is empty is 0. -/
inductive Fields : List Nat → List Nat → Prop where
  | last {w n} (h : Decimal w n ∨ (w = [] ∧ n = 0)) : Fields w [n]
  | more {w n t ns} (h : Decimal w n ∨ (w = [] ∧ n = 0)) (ht : Fields t ns) : Fields (w ++ 59 :: t) (n :: ns)

/-- Texts that differ only in case; the second one is in lower case. -/
def Like (a b : List Nat) : Prop :=
  a.length = b.length ∧ ∀ (i x y : Nat), a[i]? = some x → b[i]? = some y → x = y ∨ (97 ≤ y ∧ y ≤ 122 ∧ x + 32 = y)

/-- The beginning of a word. -/
def Starts (w b : List Nat) : Prop := Like (w.take b.length) b

inductive Kind where
  | on | default | bright | italic | reverse
  | bold (yes : Bool)
  | underline (yes : Bool)
  | rgb (r g b : Nat)
  | name (n : Nat)
  deriving DecidableEq, Repr

/-- One digit. -/
inductive Hex : Nat → Nat → Prop where
  | digit {c} (h : 48 ≤ c ∧ c ≤ 57) : Hex c (c - 48)
  | upper {c} (h : 65 ≤ c ∧ c ≤ 70) : Hex c (c - 65 + 10)
  | lower {c} (h : 97 ≤ c ∧ c ≤ 102) : Hex c (c - 97 + 10)

/-- What a word means: only its first three characters count, except for `on` and colours in digits. -/
inductive Means : List Nat → Kind → Prop where
  | on {w} (h : Like w (bs "on")) : Means w .on
  | normal {w} (h : Starts w (bs "nor")) : Means w .default
  | default {w} (h : Starts w (bs "def")) : Means w .default
  | bright {w} (h : Starts w (bs "bri")) : Means w .bright
  | italic {w} (h : Starts w (bs "ita")) : Means w .italic
  | reverse {w} (h : Starts w (bs "rev")) : Means w .reverse
  | bold {w} (h : Starts w (bs "bol")) : Means w (.bold true)
  | nobold {w} (h : Starts w (bs "nob")) : Means w (.bold false)
  | dim {w} (h : Starts w (bs "dim")) : Means w (.bold false)
  | underline {w} (h : Starts w (bs "und")) : Means w (.underline true)
  | nounderline {w} (h : Starts w (bs "nou")) : Means w (.underline false)
  | short {a b c x y z} (ha : Hex a x) (hb : Hex b y) (hc : Hex c z) : Means [35, a, b, c] (.rgb (17 * x) (17 * y) (17 * z))
  | long {a b c d e f x y z u v w} (ha : Hex a x) (hb : Hex b y) (hc : Hex c z) (hd : Hex d u) (he : Hex e v) (hf : Hex f w) :
      Means [35, a, b, c, d, e, f] (.rgb (16 * x + y) (16 * z + u) (16 * v + w))
  | name {w} {n : Nat} {s} (hn : [bs "bla", bs "red", bs "gre", bs "yel", bs "blu", bs "mag", bs "cya", bs "whi"][n]? = some s) (h : Starts w s) :
      Means w (.name n)

/-- All words have a meaning. -/
inductive MeanAll : List (List Nat) → List Kind → Prop where
  | nil : MeanAll [] []
  | cons {w k ws ks} (h : Means w k) (t : MeanAll ws ks) : MeanAll (w :: ws) (k :: ks)

def Kind.isColour : Kind → Bool
  | .rgb _ _ _ | .name _ => true
  | _ => false

def Kind.isRgb : Kind → Bool
  | .rgb _ _ _ => true
  | _ => false

def Kind.isBold : Kind → Bool
  | .bold _ => true
  | _ => false

def Kind.isUnderline : Kind → Bool
  | .underline _ => true
  | _ => false

/-- The words for the text or the background: at most one colour, at most one `default`, which is not after the colour, and at
most one `bright`, which does not go with a colour in digits. -/
structure Side (ks : List Kind) : Prop where
  colour : ks.countP Kind.isColour ≤ 1
  default : ks.count .default ≤ 1
  bright : ks.count .bright ≤ 1
  order : ∀ a k b, ks = a ++ k :: b → k.isColour = true → .default ∉ b
  digits : .bright ∈ ks → ks.countP Kind.isRgb = 0

/-- Attributes are for the text only; each is given once at most. -/
structure Front (ks : List Kind) : Prop extends Side ks where
  bold : ks.countP Kind.isBold ≤ 1
  underline : ks.countP Kind.isUnderline ≤ 1
  italic : ks.count .italic ≤ 1

structure Back (ks : List Kind) : Prop extends Side ks where
  bold : ks.countP Kind.isBold = 0
  underline : ks.countP Kind.isUnderline = 0
  italic : .italic ∉ ks

/-- A valid description: words for the text, and after `on` words for the background. -/
inductive Valid : List Kind → List Kind → Bool → Prop where
  | front {ks} (h : Front ks) (hon : .on ∉ ks) (hr : ks.count .reverse ≤ 1) : Valid ks [] false
  | both {front back} (h : Front front) (h' : Back back) (hon : .on ∉ front) (hon' : .on ∉ back)
      (hr : front.count .reverse + back.count .reverse ≤ 1) : Valid front back true

/-- All words of the description. -/
def sentence (front back : List Kind) (on : Bool) : List Kind := front ++ if on then .on :: back else []

/-- The colour that is meant. -/
def colour (ks : List Kind) : Colour :=
  match ks.find? Kind.isColour with
  | some (.name n) => .basic (if .bright ∈ ks then n + 8 else n)
  | some (.rgb r g b) => .rgb r g b
  | _ => .default

/-- What the description means.  `bright` without a colour means nothing, except before `on`, where it means white. -/
def meaning (front back : List Kind) (on : Bool) : Attr :=
  { reverse := decide (.reverse ∈ front ++ back)
    bold := decide (.bold true ∈ front)
    italic := decide (.italic ∈ front)
    underline := decide (.underline true ∈ front)
    fg := if on = true ∧ .bright ∈ front ∧ front.countP Kind.isColour = 0 then .basic 7 else colour front
    bg := colour back }

/-- The words `sgr` and `ansi`, which introduce a code. -/
def Raw (w : List Nat) : Prop := Like w (bs "sgr") ∨ Like w (bs "ansi")

end Clink.Color.Spec
