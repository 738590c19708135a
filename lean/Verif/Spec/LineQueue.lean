import Verif.Spec.Doskey

/-!
What the queue of input lines should do: a queue of lines of code points.
-/

namespace Clink.LineQueue.Spec

open Utf (specUtf8 specUtf16 IsText)
open Doskey.Spec (flat)

/-- A line: its text still to be delivered, and how it is to be handled.  `whole`: nothing has been taken from it. -/
structure Item where
  codes : List Nat
  whole : Bool
  hide : Bool
  show_ : Bool
  nodoskey : Bool
  deriving DecidableEq, Repr

/-- The line ends with a line feed or is empty. -/
def Item.complete (i : Item) : Prop := i.codes = [] ∨ i.codes.getLast? = some 10

instance (i : Item) : Decidable i.complete := by unfold Item.complete; infer_instance

/-- Text without carriage returns and line feeds at its end. -/
def Stripped (a b : List Nat) : Prop :=
  ∃ e, a = b ++ e ∧ (∀ c ∈ e, c = 13 ∨ c = 10) ∧ (∀ c, b.getLast? = some c → c ≠ 13 ∧ c ≠ 10)

/-- Half of a character that does not fit in one unit reads as U+FFFD. -/
def readable (c : Nat) : Nat := if 0xD800 ≤ c ∧ c ≤ 0xDFFF then 0xFFFD else c

inductive Op
  | back (cs : List Nat)
  | front (ls : List (List Nat × Bool × Bool × Bool))
  | line
  | char

inductive Out
  | nothing
  /-- a line with its flags -/
  | line (text : List Nat) (hide show_ nodoskey edit : Bool)
  | char (u : Nat) (newLine : Bool)

/-- One operation on the queue and what it hands out. -/
inductive Step : List Item → Op → Out → List Item → Prop
  | back_empty {q} : Step q (.back []) .nothing q
  /-- Text is put behind the queue -/
  | back_new {q cs} : cs ≠ [] → (∀ i, q.getLast? = some i → i.complete) →
      Step q (.back cs) .nothing (q ++ [⟨cs, true, false, true, false⟩])
  /-- unless it continues a line. -/
  | back_more {q i cs} : cs ≠ [] → ¬ i.complete → Step (q ++ [i]) (.back cs) .nothing (q ++ [{ i with codes := i.codes ++ cs }])
  | front {q} {ls : List (List Nat × Bool × Bool × Bool)} {is : List Item} :
      is.length = ls.length →
      (∀ (k : Nat) (l : List Nat × Bool × Bool × Bool) (i : Item), ls[k]? = some l → is[k]? = some i → ∃ s, Stripped l.1 s ∧ i = ⟨s ++ [13, 10], true, l.2.1, l.2.2.1, l.2.2.2⟩) →
      Step q (.front ls) .nothing (is ++ q)
  | line_empty : Step [] .line .nothing []
  | line {i q s} : Stripped (i.codes.map readable) s →
      Step (i :: q) .line (.line (flat (s ++ [13, 10])) i.hide i.show_ i.nodoskey (¬ i.complete)) q
  | char_empty : Step [] .char .nothing []
  /-- A character of one unit -/
  | char {c cs w h s n q} : c < 65536 → Step (⟨c :: cs, w, h, s, n⟩ :: q) .char (.char c (w ∧ (c :: cs).getLast? = some 10))
      (if cs = [] then q else ⟨cs, false, h, s, n⟩ :: q)
  /-- and of two units. -/
  | pair {c cs w h s n q} : 65536 ≤ c → Step (⟨c :: cs, w, h, s, n⟩ :: q) .char
      (.char (0xD800 + (c - 65536) / 1024) (w ∧ (c :: cs).getLast? = some 10)) (⟨(0xDC00 + (c - 65536) % 1024) :: cs, false, h, s, n⟩ :: q)

/-- Many operations. -/
inductive Steps : List Item → List Op → List Out → List Item → Prop
  | nil {q} : Steps q [] [] q
  | cons {q op out q' ops outs q''} : Step q op out q' → Steps q' ops outs q'' → Steps q (op :: ops) (out :: outs) q''

def units (cs : List Nat) : List Nat := cs.flatMap specUtf16

/-- The text that was put in. -/
def Op.given : Op → List Nat
  | .back cs => units cs
  | _ => []

/-- The text that was handed out: a character, or a line up to its line ending. -/
def Out.Delivers (raw : List Nat) : Out → Prop
  | .nothing => raw = []
  | .line t _ _ _ _ => ∃ cs s, raw = units cs ∧ Stripped (cs.map readable) s ∧ t = flat (s ++ [13, 10])
  | .char u _ => raw = [u]

end Clink.LineQueue.Spec
