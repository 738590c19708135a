import Verif.Model.Lookaside

/-! What packing and unpacking of matches should do. -/

namespace Clink.Lookaside.Spec

/-- A text as it is shown on one line: line breaks and tabs are blanks. -/
def OneLine (s t : List Nat) : Prop :=
  s.length = t.length ∧ ∀ (i c : Nat), s[i]? = some c → t[i]? = some (if c = 9 ∨ c = 10 ∨ c = 13 then 32 else c)

/-- A text without NUL; nothing if there is none. -/
def Strings (m : Match) : Prop := ∀ s ∈ [m.text, m.display, m.description], ∀ l, s = some l → 0 ∉ l

/-- Matches that can be packed: no string is given as an empty one, except for the description. -/
def Packable (m : Match) : Prop := m.text ≠ some [] ∧ m.display ≠ some []

/-- The numbers fit into their fields. -/
def Fields (m : Match) : Prop := m.type < 65536 ∧ m.appendChar < 256 ∧ m.flags < 256

/-- The offset of the description fits into 16 bits. -/
def Short (debug : Bool) (m : Match) : Prop :=
  (m.text.getD []).length + (m.display.getD []).length + (if debug then 10 else 6) < 65536

/-- What is to be read later for a match. -/
structure Says (heap : Heap) (d : Nat × Extra) (m : Match) : Prop where
  type : d.2.type = m.type
  appendChar : d.2.appendChar = m.appendChar
  flags : d.2.flags = m.flags
  text : ∃ t, getString heap d.1 0 = some (some t) ∧ OneLine (m.text.getD []) t
  display : ∃ t, getString heap d.1 d.2.displayOffset = some (some t) ∧ OneLine (m.display.getD []) t
  description : ∃ t, getString heap d.1 d.2.descriptionOffset = some (some t) ∧ OneLine (m.description.getD []) t

/-- The block at the address holds the packed match. -/
def Holds (debug : Bool) (heap : Heap) (p : Nat) (m : Match) : Prop :=
  ∃ buf block n, heap p = some block ∧ buf.length = calcPackedSize debug m.text m.display m.description ∧
    packMatch debug buf m = some (block, n, true)

/-- What is done with the tables.  For `create` there are the pointers of the array after the first one. -/
inductive Op where
  | create (owner : Nat) (matches_ : List Nat)
  | destroy (owner : Nat)
  | setOne (p type append flags : Nat)
  | clearOne

/-- Running operations, each with the memory at the time. -/
def run (debug : Bool) (s : State) : List (Heap × Op) → Option State
  | [] => some s
  | (heap, .create owner ms) :: l => (s.create debug heap owner ms).bind fun r => run debug r.1 l
  | (_, .destroy owner) :: l => run debug (s.destroy owner).1 l
  | (_, .setOne p t a f) :: l => run debug (s.setOne p t a f) l
  | (_, .clearOne) :: l => run debug s.clearOne l

/-- The array was given a table by operation `i`, and was not destroyed since. -/
def Alive (ops : List (Heap × Op)) (i owner : Nat) (heap : Heap) (ms : List Nat) : Prop :=
  ops[i]? = some (heap, .create owner ms) ∧ owner ≠ 0 ∧ ∀ j, i < j → ∀ h, ops[j]? ≠ some (h, .destroy owner)

/-- An array gets no second table. -/
def Disciplined (ops : List (Heap × Op)) : Prop :=
  ∀ j h owner ms, ops[j]? = some (h, .create owner ms) → owner ≠ 0 → ∀ i heap ms', ¬ Alive (ops.take j) i owner heap ms'

/-- The pointers before the null pointer. -/
def Listed (ms : List Nat) (p : Nat) : Prop := p ≠ 0 ∧ ∃ before after, ms = before ++ p :: after ∧ 0 ∉ before

/-- The match that was set apart, if any. -/
inductive One (ops : List (Heap × Op)) : Option (Nat × Nat × Nat × Nat) → Prop where
  | never (h : ∀ (j : Nat) h' p t a f, ops[j]? ≠ some (h', .setOne p t a f)) : One ops none
  | set {i : Nat} {h p t a f} (hi : ops[i]? = some (h, .setOne p t a f))
      (hl : ∀ j : Nat, i < j → ∀ h', ops[j]? ≠ some (h', .clearOne) ∧ ∀ p' t' a' f', ops[j]? ≠ some (h', .setOne p' t' a' f')) : One ops (some (p, t, a, f))
  | cleared {i : Nat} {h} (hi : ops[i]? = some (h, .clearOne)) (hl : ∀ j : Nat, i < j → ∀ h' p' t' a' f', ops[j]? ≠ some (h', .setOne p' t' a' f')) : One ops none

end Clink.Lookaside.Spec
