import Verif.Spec.Doskey

/-!
What splitting a line into commands and words should do.  Text is a list of code points; `flat` is its UTF-8.
-/

namespace Clink.Tokens.Spec

open Doskey.Spec (flat Skippable)

/-- Whether the next character is quoted, or escaped by a caret. -/
inductive Mode | plain | quoted | escaped
  deriving DecidableEq

def Mode.step : Mode → Nat → Mode
  | .plain, c => if c = 34 then .quoted else if c = 94 then .escaped else .plain
  | .quoted, c => if c = 34 then .plain else .quoted
  | .escaped, _ => .plain

/-- The mode after some text. -/
def mode (u : List Nat) : Mode := u.foldl Mode.step .plain

/-- The characters that are neither quoted nor escaped, without carets. -/
def visibleFrom : Mode → List Nat → List Nat
  | _, [] => []
  | m, c :: r => (if m = .plain ∧ c ≠ 94 then [c] else []) ++ visibleFrom (m.step c) r

def visible (u : List Nat) : List Nat := visibleFrom .plain u

/-- A separator of commands. -/
def IsSep (c : Nat) : Prop := c = 38 ∨ c = 124

def Digit (c : Nat) : Prop := 48 ≤ c ∧ c ≤ 57
def Blank (c : Nat) : Prop := c = 32 ∨ c = 9
def Angle (c : Nat) : Prop := c = 60 ∨ c = 62

/-- A redirection symbol. -/
def Redir (r : List Nat) : Prop := r = [60] ∨ r = [62] ∨ r = [60, 60] ∨ r = [62, 62]

/-- Text after which a digit can name a handle: nothing, a blank, or a redirection. -/
def Before (p : List Nat) : Prop :=
  p = [] ∨ (∃ q c, p = q ++ [c] ∧ (Blank c ∨ Angle c)) ∨ ∃ q c, p = q ++ [38, c] ∧ Digit c

/-- The text ends with the redirection of a numbered handle, like `2>`, so that `&` may follow. -/
def Handle (u : List Nat) : Prop :=
  ∃ p d r, u = p ++ d :: r ∧ Digit d ∧ Redir r ∧ Before p

/-- The start of a word: nothing, or a blank that is neither quoted nor escaped. -/
def WordStart (p : List Nat) : Prop := p = [] ∨ ∃ q c, p = q ++ [c] ∧ Blank c ∧ mode q = .plain

/-- The plain form: the digit starts a word. -/
def PlainHandle (u : List Nat) : Prop :=
  ∃ p d r, u = p ++ d :: r ∧ Digit d ∧ Redir r ∧ WordStart p

/-- The text ends with a redirection symbol or the `&` of a handle, or with `&` and a digit. -/
def AfterRedir (x : List Nat) : Prop := (∃ q d, x = q ++ [d] ∧ (Angle d ∨ d = 38)) ∨ ∃ q d, x = q ++ [38, d] ∧ Digit d

/-- There is no command yet: apart from the contents of quotes and characters after a caret there are only delimiters,
separators, redirection symbols, and characters directly after redirections. -/
def Idle (u : List Nat) : Prop :=
  ∀ x c y, u = x ++ c :: y → mode x = .plain → c ∈ [64, 32, 9, 61, 59, 44, 40, 38, 124, 60, 62] ∨ AfterRedir x

def lowerCase (c : Nat) : Nat := if 65 ≤ c ∧ c ≤ 90 then c + 32 else c

/-- The text ends in the target of a redirection: there is no blank behind the redirection symbol, except quoted and escaped ones,
and directly behind a symbol or a handle. -/
def InTarget (x : List Nat) : Prop :=
  ∃ a g b, x = a ++ g :: b ∧ Angle g ∧ mode a = .plain ∧
    ∀ y z w, b = y ++ z :: w → mode (a ++ g :: y) = .plain → Blank z → AfterRedir (a ++ g :: y)

/-- What can be before the name of a command: blanks, parentheses, `@` and redirections. -/
def Lead (p : List Nat) : Prop :=
  ∀ x c y, p = x ++ c :: y → mode x = .plain → c ∈ [32, 9, 40, 64] ∨ Angle c ∨ InTarget x

/-- `rem`, in any case. -/
def IsRem (w : List Nat) : Prop := w.map lowerCase = [114, 101, 109]

/-- What ends the name of a command: a blank or one of `(=+[]\;:,./`. -/
def nameEnds : List Nat := [32, 9, 40, 61, 43, 91, 93, 92, 59, 58, 44, 46, 47]

/-- The text is a remark: the command is `rem`, perhaps with escaped characters in between. -/
def Remark (u : List Nat) : Prop :=
  ∃ p w d r, u = p ++ (w ++ d :: r) ∧ Lead p ∧ mode p = .plain ∧ IsRem (visible w) ∧ mode w = .plain ∧ (d ∈ nameEnds ∨ Angle d)

/-- The plain form. -/
def PlainRemark (u : List Nat) : Prop :=
  ∃ p w d r, u = p ++ (w ++ d :: r) ∧ (∀ c ∈ p, c ∈ [32, 9, 40, 64]) ∧ IsRem w ∧ d ∈ nameEnds

/-- There is something that is neither a delimiter nor a separator nor a redirection symbol. -/
def Started (u : List Nat) : Prop :=
  ∃ x c y, u = x ++ c :: y ∧ mode x = .plain ∧ c ∉ [64, 32, 9, 61, 59, 44, 40, 38, 124, 60, 62]

/-- The names of aliases are ASCII. -/
def AsciiNames (lookup : List Nat → Option (List Nat)) : Prop := ∀ w, lookup w ≠ none → ∀ b ∈ w, b < 128

/-- `name` is the first word of the text `name ++ t`, up to a blank, and an alias. -/
def IsAlias (lookup : List Nat → Option (List Nat)) (name t : List Nat) : Prop :=
  name ≠ [] ∧ (∀ c ∈ name, ¬ Blank c) ∧ (∀ c r, t = c :: r → Blank c) ∧ ∃ b, lookup (flat name) = some b ∧ b ≠ []

/-- The text `w` is one command, when `rest` follows: perhaps an alias, then text in which a separator that is neither quoted nor
escaped can only occur before the command starts, in the redirection of a handle, and in a remark.  Where it ends there is no
quote, no plain redirection of a handle, and no plain remark, and the command has started. -/
def Command (lookup : List Nat → Option (List Nat)) (w rest : List Nat) : Prop :=
  ∃ name t, w = name ++ t ∧
    (IsAlias lookup name (t ++ rest) ∨ name = [] ∧ ∀ n t', w ++ rest = n ++ t' → ¬ IsAlias lookup n t') ∧
    (∀ x s y, t = x ++ s :: y → IsSep s → mode x = .plain → s = 38 ∧ Handle x ∨ name = [] ∧ (Idle x ∨ Remark x)) ∧
    ∀ s r, rest = s :: r → mode t = .plain ∧ ¬ (s = 38 ∧ PlainHandle t) ∧
      (name = [] → ¬ PlainRemark t ∧ (Started t ∨ AfterRedir t))

/-- What is skipped before a command: parentheses, blanks and `@`; without parentheses only one blank, and only when
there was a separator. -/
def Skipped (first : Bool) (o : List Nat) : Prop :=
  Skippable o ∧ (40 ∉ o → o = [] ∨ first = false ∧ o = [32])

/-- What comes before a command: a separator, except at the start of the line, and skipped text. -/
def Opening (first : Bool) (o rest : List Nat) : Prop :=
  if first then Skipped true o
  else ∃ s sp, IsSep s ∧ Skipped false sp ∧ (o = s :: s :: sp ∨ o = s :: sp ∧ (sp ++ rest).head? ≠ some s)

/-- What is dropped at the end of a command: parentheses that were opened before it, and blanks. -/
def Closing (o c : List Nat) : Prop :=
  (∀ x ∈ c, x = 41 ∨ x = 32) ∧ c.count 41 ≤ o.count 40

/-- A line and the ranges (offset and length in bytes) of its commands.  `pos` is the offset of the text. -/
inductive Split (lookup : List Nat → Option (List Nat)) : Bool → Nat → List Nat → List (Nat × Nat) → Prop
  | nil {first pos} : Split lookup first pos [] []
  | last {first pos o cmd cl} : Opening first o (cmd ++ cl) → Command lookup (cmd ++ cl) [] → Closing o cl →
      Split lookup first pos (o ++ (cmd ++ cl)) [(pos + (flat o).length, (flat cmd).length)]
  | cons {first pos o cmd cl s rest rs} : Opening first o (cmd ++ cl ++ s :: rest) → Command lookup (cmd ++ cl) (s :: rest) → Closing o cl →
      IsSep s →
      Split lookup false (pos + (flat (o ++ (cmd ++ cl))).length) (s :: rest) rs →
      Split lookup first pos (o ++ (cmd ++ cl) ++ s :: rest) ((pos + (flat o).length, (flat cmd).length) :: rs)

/-- Ranges in increasing order that do not overlap, between `pos` and `stop`. -/
def Ordered (stop : Nat) : Nat → List (Nat × Nat) → Prop
  | _, [] => True
  | pos, r :: rs => pos ≤ r.1 ∧ r.1 + r.2 ≤ stop ∧ Ordered stop (r.1 + r.2) rs

/-- The same for words, except that a word may start one byte before the end of the one before, at a plus sign after
a space. -/
def WordsOrdered (buffer : List Nat) (stop : Nat) : Nat → List (Nat × Nat) → Prop
  | _, [] => True
  | pos, r :: rs =>
    (pos ≤ r.1 ∨ r.1 + 1 = pos ∧ r.1 ≠ 0 ∧ buffer.getD r.1 0 = 43 ∧ buffer.getD (r.1 - 1) 0 = 32) ∧
    r.1 + r.2 ≤ stop ∧ WordsOrdered buffer stop (r.1 + r.2) rs

end Clink.Tokens.Spec
