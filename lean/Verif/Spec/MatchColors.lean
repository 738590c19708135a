/-!
Colouring rules as documented in docs/clink.md:1795-1850 and in the help of `match.coloring_rules`:
how rules are written, what they mean, and which colour a match gets.
-/
namespace Clink.MatchColors.Spec

abbrev Text := List Nat

def bs (s : String) : Text := s.toList.map Char.toNat

/-- The types. -/
inductive Ty where
  | no | fi | di | ro | hi | ln | ex | mi | orphan | so
deriving Repr, DecidableEq

def Ty.word : Ty → Text
  | .no => bs "no" | .fi => bs "fi" | .di => bs "di" | .ro => bs "ro" | .hi => bs "hi"
  | .ln => bs "ln" | .ex => bs "ex" | .mi => bs "mi" | .orphan => bs "or" | .so => bs "so"

/-- One condition: a type or its negation, `any`, or a pattern or its negation. -/
inductive Cond where
  | ty (neg : Bool) (t : Ty)
  | any
  | pat (neg : Bool) (p : Text)
deriving Repr, DecidableEq

/-- A rule, or the setting of the colour of the common prefix. -/
inductive Item where
  | rule (conds : List Cond) (color : Text)
  | pfx (color : Text)
deriving Repr, DecidableEq

/-! ### Writing -/

/-- The letters which mean something else after a backslash. -/
def letters : List (Nat × Nat) :=
  [(97, 7), (98, 8), (101, 27), (102, 12), (110, 10), (114, 13), (116, 9), (118, 11), (63, 127), (95, 32)]

/-- A hexadecimal digit. -/
def hexChar (upper : Bool) (d : Nat) : Nat := if d < 10 then 48 + d else (if upper then 55 else 87) + d

/-- The ways to write characters. -/
inductive Piece where
  | ch (c : Nat)                 -- the character
  | esc (c : Nat)                -- backslash and the character
  | named (c v : Nat)            -- backslash and a letter
  | oct (a b c : Nat)            -- backslash and three octal digits
  | hex (wide upper : Bool) (ds : List (Bool × Nat))   -- `\x` and two, or `\u` and four digits
  | ctrl (c : Nat)               -- `^` and a character
  | quoted (s : Text)            -- in quotes
  | octThen (ds : List Nat) (c : Nat)   -- backslash, one or two octal digits, and a character that is none
  | hexThen (wide upper : Bool) (ds : List (Bool × Nat)) (c : Nat)   -- fewer hexadecimal digits, and a character that is none
deriving Repr, DecidableEq

def hexValue (ds : List (Bool × Nat)) : Nat := ds.foldl (fun n d => n * 16 + d.2) 0
def octValue (ds : List Nat) : Nat := ds.foldl (fun n d => n * 8 + d) 0

def isOct (c : Nat) : Prop := 48 ≤ c ∧ c ≤ 55
def isHex (c : Nat) : Prop := (48 ≤ c ∧ c ≤ 57) ∨ (97 ≤ c ∧ c ≤ 102) ∨ (65 ≤ c ∧ c ≤ 70)

/-- What is written. -/
def Piece.text : Piece → Text
  | .ch c => [c]
  | .esc c => [92, c]
  | .named c _ => [92, c]
  | .oct a b c => [92, 48 + a, 48 + b, 48 + c]
  | .hex wide upper ds =>
    92 :: (if wide then (if upper then 85 else 117) else (if upper then 88 else 120)) ::
      ds.map (fun d => hexChar d.1 d.2)
  | .ctrl c => [94, c]
  | .quoted s => 34 :: s ++ [34]
  | .octThen ds c => 92 :: ds.map (48 + ·) ++ [c]
  | .hexThen wide upper ds c =>
    92 :: (if wide then (if upper then 85 else 117) else (if upper then 88 else 120)) ::
      ds.map (fun d => hexChar d.1 d.2) ++ [c]

/-- What is meant. -/
def Piece.value : Piece → Text
  | .ch c => [c]
  | .esc c => [c]
  | .named _ v => [v]
  | .oct a b c => [64 * a + 8 * b + c]
  | .hex _ _ ds => [hexValue ds]
  | .ctrl c => [if c = 63 then 127 else c % 32]
  | .quoted s => s
  | .octThen ds c => [octValue ds, c]
  | .hexThen _ _ ds c => [hexValue ds, c]

/-- A character which can be given by one UTF-16 unit. -/
def single (n : Nat) : Prop := 0 < n ∧ n < 65536 ∧ ¬ (0xD800 ≤ n ∧ n < 0xE000)

/-- A character which stands for itself; `stops` are the characters which end the text here. -/
def itself (stops : List Nat) (c : Nat) : Prop := c ≠ 0 ∧ c ≠ 58 ∧ c ≠ 34 ∧ c ≠ 92 ∧ c ≠ 94 ∧ c ∉ stops

/-- The ways are used as intended; `stops` are the characters which end the text here. -/
def Piece.ok (stops : List Nat) : Piece → Prop
  | .ch c => itself stops c
  | .esc c => single c ∧ c ∉ letters.map Prod.fst ∧ ¬ (48 ≤ c ∧ c ≤ 55) ∧ c ≠ 120 ∧ c ≠ 88 ∧ c ≠ 117 ∧ c ≠ 85
  | .named c v => (c, v) ∈ letters
  | .oct a b c => a < 8 ∧ b < 8 ∧ c < 8 ∧ 0 < 64 * a + 8 * b + c
  | .hex wide _ ds => ds.length = (if wide then 4 else 2) ∧ (∀ d ∈ ds, d.2 < 16) ∧ single (hexValue ds)
  | .ctrl c => c = 63 ∨ (64 < c ∧ c ≤ 126 ∧ c ≠ 96)
  | .quoted s => 34 ∉ s ∧ 0 ∉ s
  | .octThen ds c => (ds.length = 1 ∨ ds.length = 2) ∧ (∀ d ∈ ds, d < 8) ∧ 0 < octValue ds ∧ itself stops c ∧ ¬ isOct c
  | .hexThen wide _ ds c => 0 < ds.length ∧ ds.length < (if wide then 4 else 2) ∧ (∀ d ∈ ds, d.2 < 16) ∧ 0 < hexValue ds ∧
      itself stops c ∧ ¬ isHex c

def Piece.isQuoted : Piece → Bool
  | .quoted _ => true
  | _ => false

/-- A word of a rule, as written. -/
abbrev Word := List Piece

def textOf (w : Word) : Text := w.flatMap Piece.text
def valueOf (w : Word) : Text := w.flatMap Piece.value

/-- Blanks, `=` and what has a meaning for the syntax cannot stand for themselves in a word. -/
def Word.ok (w : Word) : Prop := w ≠ [] ∧ (∀ p ∈ w, p.ok [32, 9, 13, 10, 61]) ∧ valueOf w ≠ []

def lowered (l : Text) : Text := l.map (fun c => if 65 ≤ c ∧ c ≤ 90 then c + 32 else c)

/-- The word is a keyword in any case. -/
def isWord (w : Word) (k : Text) : Prop := lowered (valueOf w) = k

def plain (w : Word) : Prop := ∀ p ∈ w, p.isQuoted = false

/-- The word is none of the types and not `any`. -/
def noKeyword (w : Word) : Prop := (∀ t : Ty, ¬ isWord w t.word) ∧ ¬ isWord w (bs "any")

/-- What a series of words says. -/
inductive Says : List Word → List Cond → Prop
  | nil : Says [] []
  | ty {w ws cs} (t : Ty) : plain w → isWord w t.word → Says ws cs → Says (w :: ws) (.ty false t :: cs)
  | notTy {n w ws cs} (t : Ty) : isWord n (bs "not") → plain w → isWord w t.word → Says ws cs →
      Says (n :: w :: ws) (.ty true t :: cs)
  | any {w ws cs} : plain w → isWord w (bs "any") → Says ws cs → Says (w :: ws) (.any :: cs)
  | pat {w ws cs} : ¬ isWord w (bs "not") → (plain w → noKeyword w) → Says ws cs →
      Says (w :: ws) (.pat false (valueOf w) :: cs)
  | notPat {n w ws cs} : isWord n (bs "not") → ¬ isWord w (bs "not") → (plain w → noKeyword w) → Says ws cs →
      Says (n :: w :: ws) (.pat true (valueOf w) :: cs)

/-- Words with blanks between them. -/
inductive Spaced : List Word → Text → Prop
  | one (w : Word) : Spaced [w] (textOf w)
  | cons (w : Word) (n : Nat) {ws t} : Spaced ws t → Spaced (w :: ws) (textOf w ++ List.replicate (n + 1) 32 ++ t)

/-- The value of an item: any characters but `:`. -/
def IsColor (color t : Text) : Prop := ∃ w : Word, (∀ p ∈ w, p.ok []) ∧ textOf w = t ∧ valueOf w = color

def prefixWord : Text := bs "readline-colored-completion-prefix"

def blanks (n : Nat) : Text := List.replicate n 32

/-- How an item is written. -/
inductive ItemText : Item → Text → Prop
  | rule {cs ws core color v} (a b : Nat) : Says ws cs → (∀ w ∈ ws, Word.ok w) → Spaced ws core →
      core ≠ prefixWord → core.getLast? ≠ some 32 → core.getLast? ≠ some 9 → core.getLast? ≠ some 13 →
      core.getLast? ≠ some 10 → IsColor color v →
      ItemText (.rule cs color) (blanks a ++ core ++ blanks b ++ 61 :: v)
  | pfx {color v} (a b : Nat) : IsColor color v →
      ItemText (.pfx color) (blanks a ++ prefixWord ++ blanks b ++ 61 :: v)

/-- How a series of items is written: with `:` between them, and perhaps at the end. -/
inductive Written : List Item → Text → Prop
  | nil : Written [] []
  | last {i t} : ItemText i t → Written [i] t
  | cons {i t l s} : ItemText i t → Written l s → Written (i :: l) (t ++ 58 :: s)

/-! ### Meaning -/

/-- The types asked for: those after the last `any`. -/
def active : List Cond → List (Bool × Ty)
  | [] => []
  | .ty n t :: cs => if Cond.any ∈ cs then active cs else (n, t) :: active cs
  | _ :: cs => active cs

/-- The patterns asked for. -/
def pats : List Cond → List (Bool × Text)
  | [] => []
  | .pat n p :: cs => (n, p) :: pats cs
  | _ :: cs => pats cs

/-- A rule for exactly one type. -/
def simple (cs : List Cond) : Option Ty :=
  match active cs, pats cs with
  | [(false, t)], [] => some t
  | _, _ => none

/-- All conditions hold for a match with the given types and name.  A rule with patterns only is for files. -/
def Fits (wild : Text → Text → Bool) (has : Ty → Bool) (name : Text) (cs : List Cond) : Prop :=
  (∀ p ∈ pats cs, wild p.2 name = !p.1) ∧
  (∀ t ∈ active cs, has t.2 = !t.1) ∧
  (active cs = [] → Cond.any ∉ cs → has .fi = true)

/-- The first rule which is not for just one type and fits has the colour `c`. -/
def First (wild : Text → Text → Bool) (has : Ty → Bool) (name : Text) (l : List Item) (c : Text) : Prop :=
  ∃ before cs after, l = before ++ .rule cs c :: after ∧ simple cs = none ∧ Fits wild has name cs ∧
    ∀ cs' c', Item.rule cs' c' ∈ before → simple cs' = none → ¬ Fits wild has name cs'

/-- The colour of a type: that of the last rule for just this type, else its default. -/
def typeColor (default : Ty → Option Text) (l : List Item) (t : Ty) : Option Text :=
  l.foldl (fun c i => match i with
    | .rule cs col => if simple cs = some t then some col else c
    | .pfx _ => c) (default t)

/-- The colour of a match is `c` (`none`: no colour of its own). -/
def ColorIs (wild : Text → Text → Bool) (default : Ty → Option Text) (l : List Item)
    (has : Ty → Bool) (shown : Ty) (name : Text) (c : Option Text) : Prop :=
  (∃ col, First wild has name l col ∧ c = some col) ∨
  ((∀ col, ¬ First wild has name l col) ∧ c = typeColor default l shown)

/-- The colour of the common prefix: the last one given, else the setting. -/
def prefixColor (setting : Text) (l : List Item) : Text :=
  l.foldl (fun c i => match i with | .pfx col => col | .rule _ _ => c) setting

/-- What is said about rules below is for rules which have a condition, use only the types that are flags of
files in combinations, and do not use `mi`, `or` and `so`. -/
def Usable : Item → Prop
  | .pfx _ => True
  | .rule cs _ =>
    (active cs ≠ [] ∨ pats cs ≠ []) ∧
    (∀ t, Cond.ty true t ∈ cs ∨ Cond.ty false t ∈ cs → t ≠ .mi ∧ t ≠ .orphan ∧ t ≠ .so) ∧
    (simple cs ≠ some .no → ∀ t ∈ active cs, t.2 ≠ .no)

/-! ### Files -/

/-- A file or directory among the matches. -/
structure Entry where
  dir : Bool
  exec : Bool
  link : Bool
  dangling : Bool
  hidden : Bool
  readonly : Bool
deriving Repr, DecidableEq

/-- How a file or directory appears: a link appears as what it points to when `target` is set. -/
inductive Look where
  | file | dir | link | nothing
deriving Repr, DecidableEq

def look (target : Bool) (e : Entry) : Look :=
  if e.link && !target then .link
  else if e.link && e.dangling then .nothing
  else if e.dir then .dir else .file

/-- The types it has. -/
def has (target : Bool) (e : Entry) (t : Ty) : Bool :=
  match look target e, t with
  | .file, .fi => true
  | .file, .ex => e.exec
  | .dir, .di => true
  | .link, .ln => true
  | .nothing, _ => false
  | _, .ro => e.readonly
  | _, .hi => e.hidden
  | _, _ => false

/-- The type whose colour it has when no rule fits. -/
def shown (target : Bool) (e : Entry) : Ty :=
  match look target e with
  | .nothing => .orphan
  | .file => if e.hidden then .hi else if e.readonly then .ro else if e.exec then .ex else .fi
  | .dir => if e.hidden then .hi else .di
  | .link => if e.hidden then .hi else if e.readonly then .ro else .ln

def isSep (c : Nat) : Bool := c == 47 || c == 92

/-- The path without its last separators, if it is a directory. -/
def bare (target : Bool) (e : Entry) (path : Text) : Text :=
  if look target e = .dir then (path.reverse.dropWhile isSep).reverse else path

/-- `n` is the part of `p` after the last separator. -/
def NameOf (p n : Text) : Prop :=
  (∀ c ∈ n, isSep c = false) ∧ (p = n ∨ ∃ d s, isSep s = true ∧ p = d ++ s :: n)

/-- Links appear as what they point to: the colour of links begins with `target`, in any case. -/
def targetColor (c : Option Text) : Bool :=
  match c with
  | none => false
  | some s => lowered (s.take 6) == bs "target"

/-- The defaults of the table of the documentation, with the colours of the settings for `ro` and `hi`. -/
def documented (ro hi : Option Text) : Ty → Option Text
  | .di => some (bs "01;34")
  | .ex => some (bs "01;32")
  | .ln => some (bs "target")
  | .ro => ro
  | .hi => hi
  | _ => none

/-- The defaults as they are; `so` is the colour of the prefix. -/
def actual (so : Text) (ro hi : Option Text) : Ty → Option Text
  | .di => some (bs "01;33")
  | .ex => some (bs "01;32")
  | .ln => some (bs "target")
  | .ro => ro
  | .hi => hi
  | .so => some so
  | _ => none

/-- The escape code for a colour.  When normal text has a colour `no` (other than none, `0` or `00`), it is
switched off first. -/
def code (no : Option Text) (c : Text) : Text :=
  match no with
  | none => 27 :: 91 :: c ++ [109]
  | some s => if s = [] ∨ s = bs "0" ∨ s = bs "00" then 27 :: 91 :: c ++ [109] else bs "\x1b[m" ++ 27 :: 91 :: c ++ [109]

/-- From here on nothing can be read: a quote that is not closed, a backslash at the end, or `^` without a character that it can be used with. -/
inductive Stuck : Text → Prop
  | quote (r : Text) : 34 ∉ r → Stuck (34 :: r)
  | backslash : Stuck [92]
  | caret : Stuck [94]
  | caretBad (c : Nat) (r : Text) : ¬ (63 ≤ c ∧ c ≤ 126) → Stuck (94 :: c :: r)

/-- An item cannot be read: there is no `=` before the next `:` or the end, or it cannot be read before or after the `=`. -/
inductive Broken : Text → Prop
  | noEq (w : Word) (u : Text) : (∀ p ∈ w, p.ok [61]) → (u = [] ∨ ∃ r, u = 58 :: r) → Broken (textOf w ++ u)
  | noEnd (w : Word) (r : Text) : (∀ p ∈ w, p.ok [61]) → Stuck r → Broken (textOf w ++ r)
  | noValue (w v : Word) (r : Text) : (∀ p ∈ w, p.ok [61]) → (∀ p ∈ v, p.ok []) → Stuck r → Broken (textOf w ++ 61 :: (textOf v ++ r))

end Clink.MatchColors.Spec
