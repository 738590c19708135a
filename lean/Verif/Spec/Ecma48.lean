import Verif.Spec.Doskey

/-!
What reading terminal output should do.  Characters are code points; `flat` is UTF-8.
-/

namespace Clink.Ecma48.Spec

open Doskey.Spec (flat)

/-- The kinds of codes. -/
inductive Kind | chars | c0 | c1 | icf
  deriving DecidableEq

/-- The start of a C1 sequence: `ESC x`, or one 8-bit control character. -/
def Intro (x : Nat) (w : List Nat) : Prop := 0x40 ≤ x ∧ x ≤ 0x5f ∧ (w = [27, x] ∨ w = [x + 0x40])

/-- C1 codes that start a string or a control sequence: DCS, OSC, PM and APC; SOS; CSI. -/
def IsCmd (x : Nat) : Prop := x = 0x50 ∨ x = 0x5d ∨ x = 0x5e ∨ x = 0x5f

def Param (c : Nat) : Prop := 0x30 ≤ c ∧ c ≤ 0x3f
def Middle (c : Nat) : Prop := 0x20 ≤ c ∧ c ≤ 0x2f
def Final (c : Nat) : Prop := 0x40 ≤ c ∧ c ≤ 0x7e

/-- Characters of a command string. -/
def CmdChar (c : Nat) : Prop := (8 ≤ c ∧ c ≤ 13 ∨ 0x20 ≤ c) ∧ c ≠ 0x9c

/-- The contents of a command string, with the number of strings that are still open inside it. -/
inductive Body : Nat → List Nat → Prop
  | nil : Body 0 []
  | char {n b c} : Body n b → CmdChar c → Body n (b ++ [c])
  | open_ {n b} : Body n b → Body (n + 1) (b ++ [27, 0x5d])
  | st {n b} : Body (n + 1) b → Body n (b ++ [27, 0x5c])
  | bel {n b} : Body (n + 1) b → Body n (b ++ [7])

/-- Printable text: no control characters, neither of 7 nor of 8 bits. -/
def Printable (c : Nat) : Prop := 0x20 ≤ c ∧ ¬ (0x80 ≤ c ∧ c ≤ 0x9f)

/-- A complete code: its kind, its number, and its text.  Nested command strings belong to the outer string. -/
inductive Code : Kind → Nat → List Nat → Prop
  | c0 {c} : 0 < c → c < 0x20 → c ≠ 27 → Code .c0 c [c]
  | icf {c} : 0x60 ≤ c → c ≤ 0x7f → Code .icf c [27, c]
  | c1 {x i} : Intro x i → ¬ IsCmd x → x ≠ 0x5b → x ≠ 0x58 → Code .c1 x i
  | csi {i ps is f} : Intro 0x5b i → (∀ c ∈ ps, Param c) → (∀ c ∈ is, Middle c) → Final f → Code .c1 0x5b (i ++ ps ++ is ++ [f])
  | sos {i b t} : Intro 0x58 i → 27 ∉ b → 0x9c ∉ b → (t = [0x9c] ∨ t = [27, 0x5c]) → Code .c1 0x58 (i ++ b ++ t)
  | cmd {x i n b t} : Intro x i → IsCmd x → Body n b → (t = [0x9c] ∨ n = 0 ∧ (t = [7] ∨ t = [27, 0x5c])) → Code .c1 x (i ++ b ++ t)

/-- A code that has been started. -/
inductive Started : List Nat → Prop
  | esc : Started [27]
  | csi {i ps is} : Intro 0x5b i → (∀ c ∈ ps, Param c) → (∀ c ∈ is, Middle c) → Started (i ++ ps ++ is)
  | sos {i b t} : Intro 0x58 i → 27 ∉ b → 0x9c ∉ b → (t = [] ∨ t = [27]) → Started (i ++ b ++ t)
  | cmd {x i n b t} : Intro x i → IsCmd x → Body n b → (t = [] ∨ t = [27]) → Started (i ++ b ++ t)

/-- A started code that cannot go on with the next character. -/
inductive Broken : List Nat → Nat → Prop
  | csi {i ps is c} : Intro 0x5b i → (∀ c ∈ ps, Param c) → (∀ c ∈ is, Middle c) → ¬ Middle c → ¬ Final c → (is = [] → ¬ Param c) →
      Broken (i ++ ps ++ is) c
  | cmd {x i n b c} : Intro x i → IsCmd x → Body n b → c < 0x20 → ¬ CmdChar c → c ≠ 27 → c ≠ 7 → Broken (i ++ b) c
  | cmdEsc {x i n b c} : Intro x i → IsCmd x → Body n b → c ≠ 0x5c → c ≠ 0x5d → Broken (i ++ b ++ [27]) c
  | sos {i b c} : Intro 0x58 i → 27 ∉ b → 0x9c ∉ b → c ≠ 0x5c → Broken (i ++ b ++ [27]) c

/-- Text that consists of broken codes; `next` is what follows it. -/
inductive Dropped : List Nat → List Nat → Prop
  | nil {next} : Dropped [] next
  | cons {w d next c} : Broken w c → (d ++ next).head? = some c → Dropped d next → Dropped (w ++ d) next

/-- An escape character, something that cannot follow it, and the text behind. -/
def Odd (w : List Nat) : Prop := ∃ c r, w = 27 :: c :: r ∧ ¬ (0x40 ≤ c ∧ c ≤ 0x7f) ∧ ∀ x ∈ r, 0x20 ≤ x

/-- A run of text.  8-bit control characters count as text inside a run. -/
def Run (w : List Nat) : Prop := ∃ c r, w = c :: r ∧ Printable c ∧ ∀ x ∈ r, 0x20 ≤ x

/-- The text ends here, or with a control character. -/
def Stop (rest : List Nat) : Prop := ∀ c, rest.head? = some c → c < 0x20

/-- What a reader learns about a piece: its kind, a number, and its text.  The number of a run means nothing, and for an
odd piece neither kind nor number mean anything. -/
def Tells (kind : Option Kind) (x : Nat) (w rest : List Nat) : Prop :=
  (∃ k, kind = some k ∧ Code k x w) ∨ (kind = some .chars ∧ Run w ∧ Stop rest) ∨ (Odd w ∧ Stop rest)

/-- A character and its bytes. -/
abbrev Ch := Nat × List Nat

def codes (w : List Ch) : List Nat := w.map (·.1)
def bytes (w : List Ch) : List Nat := w.flatMap (·.2)

/-- The pieces of a text, in order; between them only broken codes are left out; `left` is a code at the end that is
not complete. -/
inductive Tiles (left : List Ch) : List Ch → List (List Nat × Option Kind × Nat) → Prop
  | done {d} : Dropped (codes d) (codes left) → (left = [] ∨ Started (codes left)) → Tiles left (d ++ left) []
  | cons {d w rest k x ps} : Dropped (codes d) (codes (w ++ rest)) → Tells k x (codes w) (codes rest) → Tiles left rest ps →
      Tiles left (d ++ (w ++ rest)) ((bytes w, k, x) :: ps)

/-- The characters of a well-formed text. -/
def chars (cs : List Nat) : List Ch := cs.map fun c => (c, Utf.specUtf8 c)

/-- The code can be continued in another text: it has no strings inside other strings, and after a single escape
character there is a character that can follow it. -/
def Resumes (left next : List Nat) : Prop :=
  ¬ [27, 0x5d] <:+: (left ++ next.take 1).tail ∧ (left = [27] → ∀ c, next.head? = some c → 0x40 ≤ c ∧ c ≤ 0x7f)

/-- The pieces of several texts; a code that is not complete is continued in the next text.  Nothing is said from where
a code cannot be continued. -/
def Chunks : List Ch → List (List Ch) → List (List Nat × Option Kind × Nat) → Prop
  | _, [], ps => ps = []
  | left, ch :: chs, ps => Resumes (codes left) (codes ch) → ∃ left' ps1 ps2, ps = ps1 ++ ps2 ∧ Tiles left' (left ++ ch) ps1 ∧ Chunks left' chs ps2

end Clink.Ecma48.Spec
