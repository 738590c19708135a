import Verif.Spec.Words

/-!
What the words of a line are, when its commands are known.  `line` is UTF-8.
-/

namespace Clink.Tokens.Spec

open Doskey.Spec (flat)
open Utf (IsText)

/-- A word of a line. -/
structure LineWord where
  offset : Nat
  length : Nat
  command : Bool
  isAlias : Bool
  redirArg : Bool
  quoted : Bool
  delim : Nat

/-- Part of a line. -/
def slice (line : List Nat) (o n : Nat) : List Nat := (line.drop o).take n

/-- A flag begins with `-` or `/`, and there is more. -/
def IsFlag (w : List Nat) : Prop := 1 < w.length ∧ (w.head? = some 45 ∨ w.head? = some 47)

/-- A plus sign after a space belongs to the word after it. -/
def Extent (line : List Nat) (o n o' n' : Nat) : Prop :=
  if 2 ≤ o ∧ line[o - 2]? = some 32 ∧ line[o - 1]? = some 43 then o' + 1 = o ∧ n' = n + 1 else o' = o ∧ n' = n

/-- The words for one piece of a command: a flag ends after its first colon, and equal signs after it belong to it.
`stop` is the end of the command, `depr` is true for commands with argument matchers of the old kind, `first` for the
first word of a command. -/
inductive TokenWords (line : List Nat) (stop : Nat) (depr first : Bool) (o n delim : Nat) (target : Bool) : List LineWord → Prop
  | colon {o' n' a b} : Extent line o n o' n' → depr = false → target = false → IsFlag (slice line o' n') →
      slice line o' n' = a ++ 58 :: b → 58 ∉ a →
      TokenWords line stop depr first o n delim target
        [⟨o', a.length + 1, first, false, false, false, 58⟩, ⟨o' + (a.length + 1), b.length, false, false, false, false, delim⟩]
  | flag {o' n' k r} : Extent line o n o' n' → depr = false → target = false → IsFlag (slice line o' n') →
      58 ∉ slice line o' n' → (line.take stop).drop (o' + n') = List.replicate k 61 ++ r → r.head? ≠ some 61 →
      TokenWords line stop depr first o n delim target [⟨o', n' + k, first, false, false, false, delim⟩]
  | plain {o' n'} : Extent line o n o' n' → (depr = true ∨ target = true ∨ ¬ IsFlag (slice line o' n')) →
      TokenWords line stop depr first o n delim target [⟨o', n', first, false, target, false, delim⟩]

/-- The same for the pieces of a text that starts at `base`. -/
inductive PieceWords (line : List Nat) (base stop : Nat) (depr : Bool) : Bool → List (Nat × Nat × Nat × Bool) → List LineWord → Prop
  | nil {first} : PieceWords line base stop depr first [] []
  | cons {first t ts ws ws'} : TokenWords line stop depr first (t.1 + base) t.2.1 t.2.2.1 t.2.2.2 ws →
      PieceWords line base stop depr false ts ws' → PieceWords line base stop depr first (t :: ts) (ws ++ ws')

/-- An alias can stand here: at the start of the line, or after a separator and not more than one space. -/
def AliasPlace (enh : Bool) (before : List Nat) : Prop :=
  before = [] ∨ enh = true ∧ ∃ q s, IsSep s ∧ (before = q ++ [s] ∨ before = q ++ [s, 32])

/-- The command is an alias and what follows it. -/
def AliasCommand (lookup : List Nat → Option (List Nat)) (enh : Bool) (before cmd name bl t : List Nat) : Prop :=
  cmd = name ++ (bl ++ t) ∧ name ≠ [] ∧ (∀ c ∈ name, ¬ Blank c) ∧ (∀ c ∈ bl, Blank c) ∧ (∀ c r, t = c :: r → ¬ Blank c ∧ bl ≠ []) ∧
  AliasPlace enh before ∧ ∃ b, lookup (flat name) = some b ∧ b ≠ []

/-- The name of a command, as far as a blank. -/
def nameOf (cmd : List Nat) : List Nat := cmd.takeWhile fun c => c ≠ 32 ∧ c ≠ 9

/-- The words of a command that begins at `o`. -/
inductive CommandWords (lookup : List Nat → Option (List Nat)) (enh : Bool) (depr : List Nat → Bool) (line : List Nat) (o : Nat) (cmd : List Nat) :
    List LineWord → Prop
  | alias {name bl t ts ws} : AliasCommand lookup enh (line.take o) cmd name bl t →
      WordsOf (line.getD (o + (flat cmd).length) 0) (flat t).length false false false t ts →
      PieceWords line (o + (flat (name ++ bl)).length) (o + (flat cmd).length) (depr (flat name)) false ts ws →
      CommandWords lookup enh depr line o cmd (⟨o, (flat name).length, true, true, false, false, line.getD o 0⟩ :: ws)
  | plain {ts ws} : (¬ ∃ name bl t, AliasCommand lookup enh (line.take o) cmd name bl t) →
      WordsOf (line.getD (o + (flat cmd).length) 0) (flat cmd).length true false true cmd ts →
      PieceWords line o (o + (flat cmd).length) (nameOf cmd ≠ [] ∧ depr (flat (nameOf cmd)) = true) true ts ws →
      CommandWords lookup enh depr line o cmd ws

/-- The words of several commands, and whether the last has none. -/
inductive LineWords (lookup : List Nat → Option (List Nat)) (enh : Bool) (depr : List Nat → Bool) (line : List Nat) :
    List (Nat × Nat) → List LineWord → Bool → Prop
  | one {o n cmd ws} : (∀ c ∈ cmd, IsText c) → slice line o n = flat cmd → CommandWords lookup enh depr line o cmd ws →
      LineWords lookup enh depr line [(o, n)] ws ws.isEmpty
  | cons {o n cmd rs ws ws' b} : (∀ c ∈ cmd, IsText c) → slice line o n = flat cmd → CommandWords lookup enh depr line o cmd ws →
      LineWords lookup enh depr line rs ws' b → LineWords lookup enh depr line ((o, n) :: rs) (ws ++ ws') b

/-- `.` or `..` is taken for a command, and a slash follows. -/
def DotSlash (line : List Nat) (c w : LineWord) : Prop :=
  c.command = true ∧ (slice line c.offset c.length = [46] ∨ slice line c.offset c.length = [46, 46]) ∧
  w.offset = c.offset + c.length ∧ (slice line w.offset w.length).head? = some 47

/-- When slashes are translated, such words are taken together, if they are the last ones. -/
inductive Merged (line : List Nat) (translate : Nat) : List LineWord → List LineWord → Prop
  | merged {ws c w} : (translate = 1 ∨ translate = 3) → DotSlash line c w →
      Merged line translate (ws ++ [c, w]) (ws ++ [{ c with length := c.length + w.length }])
  | same {ws} : (∀ us c w, ws = us ++ [c, w] → ¬ ((translate = 1 ∨ translate = 3) ∧ DotSlash line c w)) → Merged line translate ws ws

/-- An empty word at the cursor. -/
def endWord (line : List Nat) (cursor : Nat) (first : Bool) : LineWord :=
  ⟨cursor, 0, first, false, false, false, if cursor = 0 then 0 else line.getD (cursor - 1) 0⟩

/-- If there is no word at the cursor, an empty one is added. -/
inductive AtCursor (line : List Nat) (cursor : Nat) (first : Bool) : List LineWord → List LineWord → Prop
  | none : AtCursor line cursor first [] [endWord line cursor first]
  | add {ws w} : w.offset + w.length < cursor → AtCursor line cursor first (ws ++ [w]) (ws ++ [w, endWord line cursor first])
  | same {ws w} : cursor ≤ w.offset + w.length → AtCursor line cursor first (ws ++ [w]) (ws ++ [w])

/-- In the analysis of a whole line this is done only when there is no word at all. -/
inductive OrEmpty (line : List Nat) (cursor : Nat) (first : Bool) : List LineWord → List LineWord → Prop
  | none : OrEmpty line cursor first [] [endWord line cursor first]
  | same {ws} : ws ≠ [] → OrEmpty line cursor first ws ws

/-- Quotes around a word are taken away; a quote in front also when it is not closed at the end. -/
inductive Unquoted (line : List Nat) (w : LineWord) : LineWord → Prop
  | same : w.isAlias = true ∨ (slice line w.offset w.length).head? ≠ some 34 → Unquoted line w { w with quoted := false }
  | opened {x} : w.isAlias = false → slice line w.offset w.length = 34 :: x → (¬ ∃ y, x = y ++ [34] ∧ mode (34 :: y) = .quoted) →
      Unquoted line w { w with offset := w.offset + 1, length := w.length - 1, quoted := true }
  | closed {y} : w.isAlias = false → slice line w.offset w.length = 34 :: (y ++ [34]) → mode (34 :: y) = .quoted →
      Unquoted line w { w with offset := w.offset + 1, length := w.length - 2, quoted := true }

inductive AllUnquoted (line : List Nat) : List LineWord → List LineWord → Prop
  | nil : AllUnquoted line [] []
  | cons {w w' ws ws'} : Unquoted line w w' → AllUnquoted line ws ws' → AllUnquoted line (w :: ws) (w' :: ws')

end Clink.Tokens.Spec
