import Verif.Spec.Tokens

/-!
What the words of a command are.  Text is a list of code points; `flat` is its UTF-8.
-/

namespace Clink.Tokens.Spec

open Doskey.Spec (flat)

/-- What a word is: the name of the command, the target of a redirection, or an argument. -/
inductive Kind | command | target | arg
  deriving DecidableEq

def kind (cw redir : Bool) : Kind := if redir then .target else if cw then .command else .arg

/-- Blank, tab, newline and ``'`=+;,()[]{}``. -/
def wordSeps : List Nat := [32, 9, 10, 39, 96, 61, 43, 59, 44, 40, 41, 91, 93, 123, 125]

/-- Blank, tab and `@=;,(`. -/
def nameSeps : List Nat := [64, 32, 9, 61, 59, 44, 40]

/-- What separates a word from what comes before it. -/
def Kind.before : Kind → List Nat
  | .arg => wordSeps
  | _ => nameSeps

/-- What ends a word; a slash ends the name of a command that does not begin with one. -/
def Kind.ends (slash : Bool) : Kind → List Nat
  | .arg => wordSeps
  | .target => nameSeps
  | .command => if slash then nameSeps else 47 :: nameSeps

/-- Separators: a space may be escaped. -/
inductive Seps (ds : List Nat) : List Nat → Prop
  | nil : Seps ds []
  | char {c s} : c ∈ ds → Seps ds s → Seps ds (c :: s)
  | caret {s} : Seps ds s → Seps ds (94 :: 32 :: s)

def AtSep (ds : List Nat) (t : List Nat) : Prop := (∃ c r, t = c :: r ∧ c ∈ ds) ∨ ∃ r, t = 94 :: 32 :: r

/-- A blank or the end of the line. -/
def BlankOrEnd (c : Nat) : Prop := Blank c ∨ c = 0

/-- The character ends a word, when `r` comes after it and `after` after the text: a separator, a redirection, or an escaped
blank, unless it is in the target of a redirection. -/
def EndsWord (k : Kind) (slash : Bool) (after c : Nat) (r : List Nat) : Prop :=
  c ∈ k.ends slash ∨ Angle c ∨ c = 94 ∧ k ≠ .target ∧ BlankOrEnd (r.headD after)

/-- The characters that are neither quoted nor escaped. -/
def outerFrom : Mode → List Nat → List Nat
  | _, [] => []
  | m, c :: r => (if m = .plain then [c] else []) ++ outerFrom (m.step c) r

/-- Text without a digit at its start. -/
def dropDigit : List Nat → List Nat
  | [] => []
  | c :: r => if 48 ≤ c ∧ c ≤ 57 then r else c :: r

/-- The commands that are part of the command interpreter. -/
def builtins : List (List Nat) :=
  ["assoc", "break", "call", "cd", "chdir", "cls", "color", "copy", "date", "del", "dir", "dpath", "echo", "endlocal", "erase",
   "exit", "for", "ftype", "goto", "if", "md", "mkdir", "mklink", "move", "path", "pause", "popd", "prompt", "pushd", "rd", "rem",
   "ren", "rename", "rmdir", "set", "setlocal", "shift", "start", "time", "title", "type", "ver", "verify", "vol"].map
    fun s => s.toList.map Char.toNat

/-- The word is the name of such a command, in any case.  A digit in front, and escaped characters, are ignored, if there are
not two of them together and name and carets have no more than eight characters. -/
def Builtin (w : List Nat) : Prop :=
  let k := outerFrom .plain (dropDigit w)
  k.length ≤ 8 ∧ ¬ [94, 94] <:+: k ∧ (k.filter (· ≠ 94)).map lowerCase ∈ builtins

/-- The character ends the name of such a command: ``&(=+[]\|;:,./``. -/
def Breaks (fst : Bool) (w : List Nat) (c : Nat) : Prop :=
  fst = true ∧ Builtin w ∧ c ∈ [38, 40, 61, 43, 91, 93, 92, 124, 59, 58, 44, 46, 47]

/-- Text without a place where a word ends, when `r` comes after it. -/
def IsWord (k : Kind) (slash : Bool) (after : Nat) (fst : Bool) (w r : List Nat) : Prop :=
  ∀ p c v, w = p ++ c :: v → mode p = .plain → ¬ EndsWord k slash after c (v ++ r) ∧ ¬ Breaks fst p c

/-- A redirection symbol is as long as possible. -/
def Whole (op r : List Nat) : Prop := op.length = 1 → r.head? ≠ op.head?

/-- The text after a redirection symbol is its target. -/
def isTarget (r : List Nat) : Bool := r.head? ≠ some 60 && r.head? ≠ some 62 && r.head? ≠ some 38 && r.head? ≠ some 124

/-- What follows the word `w`, the delimiter reported for it, what is left of the text, and whether that is the target of a
redirection. -/
inductive After (k : Kind) (slash : Bool) (after : Nat) (fst : Bool) (w : List Nat) : List Nat → Nat → List Nat → Bool → Prop
  | stop : After k slash after fst w [] 0 [] false
  | caretStop : k ≠ .target → BlankOrEnd after → mode w = .plain → After k slash after fst w [94] 0 [] false
  | caret {d r} : k ≠ .target → Blank d → mode w = .plain → After k slash after fst w (94 :: d :: r) d (d :: r) false
  | sep {c r} : c ∈ k.ends slash → c ≠ 47 → ¬ Breaks fst w c → mode w = .plain →
      After k slash after fst w (c :: r) (if r = [] then 0 else c) r false
  | break_ {c r} : Breaks fst w c ∨ c = 47 ∧ c ∈ k.ends slash → mode w = .plain → After k slash after fst w (c :: r) c (c :: r) false
  | redirection {op r} : Redir op → Whole op r → mode w = .plain → w ≠ [] → (∀ d, Digit d → w ≠ [d]) →
      After k slash after fst w (op ++ r) (r.headD 0 % 256) r (isTarget r)

/-- A redirection in front of a word, what follows it, and whether that is its target. -/
inductive Operator : List Nat → List Nat → Bool → Prop
  | plain {op r} : Redir op → Whole op r → Operator op r (isTarget r)
  | handle {d op r} : Digit d → Redir op → Whole op r → r.head? ≠ some 38 → Operator (d :: op) r (isTarget r)
  | copy {d op e r} : Digit d → Redir op → Digit e → Operator (d :: op ++ [38, e]) r false
  | bad {d op r} : Digit d → Redir op → (∀ e, r.head? = some e → ¬ Digit e) → Operator (d :: op ++ [38]) r false

/-- The next word of a text: offset, length, delimiter, and whether it is the target of a redirection; what is left of the
text, and whether that is such a target.
`cw`: there was no command yet.  `redir`: the text is the target of a redirection.  `fst`: nothing came before, so that the
commands of the interpreter are known.  `cont`: a redirection without a target came before. -/
inductive NextWord (after : Nat) : (cw redir fst cont : Bool) → (pos : Nat) → (text : List Nat) → Nat × Nat × Nat × Bool → List Nat → Bool → Prop
  | word {cw redir fst cont pos s w r delim rest redir'} :
      Seps (kind cw redir).before s → ¬ AtSep (kind cw redir).before (w ++ r) →
      IsWord (kind cw redir) (cont = false ∧ (w ++ r).head? = some 47) after fst w r →
      After (kind cw redir) (cont = false ∧ (w ++ r).head? = some 47) after fst w r delim rest redir' →
      NextWord after cw redir fst cont pos (s ++ (w ++ r)) (pos + (flat s).length, (flat w).length, delim, redir) rest redir'
  | redirection {cw redir fst cont pos s op r redir' t rest redir''} :
      Seps (kind cw redir).before s → Operator op r redir' →
      NextWord after cw redir' false true (pos + (flat (s ++ op)).length) r t rest redir'' →
      NextWord after cw redir fst cont pos (s ++ (op ++ r)) t rest redir''

/-- The words of a text.  None come after a word with delimiter 255, and it is lost, too. -/
inductive WordsOf (after n : Nat) : (cw redir fst : Bool) → (text : List Nat) → List (Nat × Nat × Nat × Bool) → Prop
  | nil {cw redir fst} : WordsOf after n cw redir fst [] []
  | lost {cw redir fst text t rest redir'} : text ≠ [] → NextWord after cw redir fst false (n - (flat text).length) text t rest redir' →
      t.2.2.1 = 255 → WordsOf after n cw redir fst text []
  | cons {cw redir fst text t rest redir' ts} : text ≠ [] →
      NextWord after cw redir fst false (n - (flat text).length) text t rest redir' → t.2.2.1 ≠ 255 →
      WordsOf after n (cw && t.2.2.2) redir' false rest ts → WordsOf after n cw redir fst text (t :: ts)

end Clink.Tokens.Spec
