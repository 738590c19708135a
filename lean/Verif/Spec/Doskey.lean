import Verif.Spec.Utf

/-!
What doskey expansion should do.
-/

namespace Clink.Doskey.Spec

open Utf (specUtf8 IsText)

/-- UTF-8 text. -/
def flat (cs : List Nat) : List Nat := cs.flatMap specUtf8

/-- Well-formed UTF-8 text without NUL. -/
def Wf (l : List Nat) : Prop := ∃ cs, (∀ c ∈ cs, IsText c) ∧ l = flat cs

/-- A piece of a macro body. -/
inductive Tag
  /-- literal text -/
  | lit (c : Nat)
  /-- a dollar sign, `>`, `<`, `|` or a line feed -/
  | dollar | gt | lt | bar | newline
  /-- argument number `i + 1` -/
  | arg (i : Nat)
  /-- all arguments -/
  | all
  /-- an unknown tag -/
  | unknown (t : Nat)

/-- How a piece is written. -/
inductive Written : Tag → List Nat → Prop
  | lit (c) : c ≠ 36 → Written (.lit c) [c]
  | dollar : Written .dollar [36, 36]
  | gt (t) : t = 103 ∨ t = 71 → Written .gt [36, t]
  | lt (t) : t = 108 ∨ t = 76 → Written .lt [36, t]
  | bar (t) : t = 98 ∨ t = 66 → Written .bar [36, t]
  | newline (t) : t = 116 ∨ t = 84 → Written .newline [36, t]
  | arg (i) : i < 9 → Written (.arg i) [36, 49 + i]
  | all : Written .all [36, 42]
  | unknown (t) : t ∉ [36, 103, 71, 108, 76, 98, 66, 116, 84, 42] → ¬ (49 ≤ t ∧ t ≤ 57) → Written (.unknown t) [36, t]

/-- A macro body and its pieces.  A single dollar sign at the end means nothing. -/
inductive Body : List Tag → List Nat → Prop
  | nil : Body [] []
  | tail : Body [] [36]
  | cons {t w ts b} : Written t w → Body ts b → Body (t :: ts) (w ++ b)

/-- What a piece stands for. -/
def Tag.value (args : List (List Nat)) (star : List Nat) : Tag → List Nat
  | .lit c => [c]
  | .dollar => [36]
  | .gt => [62]
  | .lt => [60]
  | .bar => [124]
  | .newline => [10]
  | .arg i => args.getD i []
  | .all => star
  | .unknown t => [36, t]

/-- Whether text that starts inside or outside quotes ends inside.  `q`: quotes matter. -/
def inQuotes (q : Bool) : Bool → List Nat → Bool
  | b, [] => b
  | b, c :: l => inQuotes q (if q && c == 34 then !b else b) l

/-- The text has no space outside quotes. -/
def noSpace (q : Bool) : Bool → List Nat → Prop
  | _, [] => True
  | b, c :: l => (b = false → c ≠ 32) ∧ noSpace q (if q && c == 34 then !b else b) l

/-- Text split into words at unquoted spaces. -/
inductive Words (q : Bool) : List Nat → List (List Nat) → Prop
  | nil (n : Nat) : Words q (List.replicate n 32) []
  | cons (n : Nat) {w rest ws} : w ≠ [] → noSpace q false w →
      (rest = [] ∨ inQuotes q false w = false ∧ rest.head? = some 32) →
      Words q rest ws → Words q (List.replicate n 32 ++ (w ++ rest)) (w :: ws)

/-- Text of a command, without a separator (`|` or `&`) that would end it: separators in quotes, after a caret and
in `>&` do not count. -/
inductive Cmd : List Nat → Prop
  | nil : Cmd []
  | char {c r} : c ∉ [34, 94, 62, 124, 38] → Cmd r → Cmd (c :: r)
  | quoted {x r} : 34 ∉ x → Cmd r → Cmd (34 :: (x ++ 34 :: r))
  | caret {c r} : Cmd r → Cmd (94 :: c :: r)
  | dup {r} : Cmd r → Cmd (62 :: 38 :: r)
  | redirect {c r} : c ≠ 38 → Cmd (c :: r) → Cmd (62 :: c :: r)

/-- Only blanks, `@` and parentheses may come before the name of an alias. -/
def Skippable (l : List Nat) : Prop := ∀ c ∈ l, c = 32 ∨ c = 64 ∨ c = 40

/-- A piece of the line and what became of it. -/
structure Piece where
  expanded : Bool
  src : List Nat
  out : List Nat

/-- The piece is the call of an alias and was replaced by the text of the alias, with arguments that occur
in the piece after the name. -/
def Call (lookup : List Nat → Option (List Nat)) (p : Piece) : Prop :=
  ∃ pre name post body tags args star, p.src = pre ++ (name ++ post) ∧ Skippable pre ∧ name ≠ [] ∧
    lookup name = some body ∧ Body tags body ∧ p.out = pre ++ tags.flatMap (Tag.value args star) ∧
    (∀ a ∈ args, a <:+: post) ∧ star <:+: post

def Piece.Ok (lookup : List Nat → Option (List Nat)) (p : Piece) : Prop :=
  if p.expanded then Call lookup p else p.out = p.src

end Clink.Doskey.Spec
