import Verif.Model.Suggest
import Verif.Spec.StrCompare
import Verif.Spec.Utf
/- Specification vocabulary for C52: lines and suggestions as lists of characters. -/
namespace Clink.Suggest.Spec
open Clink.Utf (specUtf8 IsText)

/-- UTF-8 of a text. -/
def u8 (cs : List Nat) : List Nat := cs.flatMap specUtf8

/-- A text: characters other than NUL. -/
def Txt (cs : List Nat) : Prop := ∀ c ∈ cs, IsText c

/-- Characters that count as the same for a suggestion have the same class. -/
def cls (cfg : Cfg) (c : Nat) : Nat :=
  let c := if cfg.ignoreCase = true ∧ c ≤ 0xffff then cfg.lower c else c
  if cfg.fuzzy then StrCompare.unaccent c else c

/-- No '/' is followed by a separator. -/
def Plain (cs : List Nat) : Prop := ∀ i, cs[i]? = some 47 → cs[i + 1]? ≠ some 47 ∧ cs[i + 1]? ≠ some 92

/-- The suggestion `s`, for the part of the line `t` from character `k`, continues the line. -/
def Fits (cfg : Cfg) (t s : List Nat) (k : Nat) : Prop :=
  k ≤ t.length ∧ (t.drop k).map (cls cfg) <+: s.map (cls cfg)

/-- The line with the rest of the suggestion behind it. -/
def shown (t s : List Nat) (k : Nat) : List Nat := t ++ s.drop (t.length - k)

/-- The line after accepting the suggestion from character `r` on: with the original
capitalisation the characters from there on are those of the suggestion. -/
def accepted (cfg : Cfg) (t s : List Nat) (k r : Nat) : List Nat :=
  if cfg.originalCase then t.take r ++ s.drop (r - k) else shown t s k

def Blank (c : Nat) : Prop := c = 32 ∨ c = 9

instance (c : Nat) : Decidable (Blank c) := by unfold Blank; infer_instance

/-- The end of the line is in quotes, judging from the character before `e` on. -/
def inQuotes (t : List Nat) (e : Nat) : Bool := (t.drop (e - 1)).count 34 % 2 == 1

/-- Position `j` of `l` is in quotes, if its start is (`q`) or not. -/
def Quoted (q : Bool) (l : List Nat) (j : Nat) : Prop := (q.toNat + (l.take j).count 34) % 2 = 1

instance (q : Bool) (l : List Nat) (j : Nat) : Decidable (Quoted q l j) := by unfold Quoted; infer_instance

/-- The first `n` characters of `l` are blanks (the first `i`) and a word: it begins with no
blank, has blanks only in quotes, and ends before a blank that is not in quotes or at the end. -/
structure NextWord (q : Bool) (l : List Nat) (n : Nat) : Prop where
  pos : 0 < n
  le : n ≤ l.length
  word : ∃ i, i ≤ n ∧ (∀ j < i, ∃ c, l[j]? = some c ∧ Blank c) ∧
    (∀ c, l[i]? = some c → ¬ Blank c) ∧ (i < n ∨ n = l.length) ∧
    ∀ j c, i ≤ j → j < n → l[j]? = some c → Blank c → Quoted q l j
  stop : n = l.length ∨ ∃ c, l[n]? = some c ∧ Blank c ∧ ¬ Quoted q l n

/-- The suggestion `s` for the line `t` from character `k` is shown, with the word to be
completed beginning at character `e`, and the cursor is at the end of the line. -/
structure Ready (cfg : Cfg) (m : Mgr) (b : Buf) (t s : List Nat) (k e : Nat) : Prop where
  on : cfg.enable = true ∧ cfg.inline = true ∧ cfg.listActive = false
  txt : Txt t ∧ Txt s
  plain : Plain s
  buf : b = ⟨u8 t, (u8 t).length⟩
  items : ∃ src, m.items = [⟨u8 s, (u8 (t.take k)).length, src⟩]
  endword : e ≤ t.length ∧ m.endword = (u8 (t.take e)).length
  fits : Fits cfg t s k
  longer : t.length - k < s.length
  iter : m.iter = u8 (s.drop (t.length - k))

/-- Nothing is suggested, until the line differs from the one in the buffer. -/
def Quiet (m : Mgr) (b : Buf) : Prop := m.items = [] ∧ m.suppress = true ∧ m.line = b.text

/-- What keeps the place in the line right: with the original capitalisation, the characters
before the replaced ones take as many bytes in the suggestion as in the line; and no quotes
between the word and a suggestion that begins later. -/
structure Even (cfg : Cfg) (t s : List Nat) (k e : Nat) : Prop where
  bytes : cfg.originalCase = true →
    (u8 ((t.take (max e k)).drop k)).length = (u8 (s.take (max e k - k))).length
  quotes : 34 ∉ (t.take k).drop e

/-- The line editor asks for suggestions: what it considers does not prevent it. -/
def Asks (a : Ask) (m : Mgr) (b : Buf) : Prop :=
  m.paused = false ∧ a.reading = false ∧ a.selection = false ∧ b.cursor = b.text.length

end Clink.Suggest.Spec
