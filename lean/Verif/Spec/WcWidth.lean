import Verif.Model.WcWidth
/-
What the width of a character should be.  The comment above `mk_wcwidth` (clink/terminal/src/wcwidth.cpp:176-206) says that in words.
-/
namespace Clink.WcWidth.Spec

/-- A character is in a table. -/
def In (t : Table) (c : Nat) : Prop := ∃ p ∈ t, p.1 ≤ c ∧ c ≤ p.2

/-- A table of intervals in order, none of which meet. -/
def Sorted (t : Table) : Prop := (∀ p ∈ t, p.1 ≤ p.2) ∧ t.Pairwise fun p q => p.2 < q.1

/-- A control character other than NUL. -/
def Control (c : Nat) : Prop := c ≠ 0 ∧ (c < 0x20 ∨ 0x7f ≤ c ∧ c < 0xa0)

/-- The wide characters of East Asia up to U+FFFF. -/
def wideLow : Table :=
  [(0x1100, 0x115f), (0x2329, 0x232a), (0x2e80, 0x302f), (0x3030, 0x303e), (0x3040, 0x3247), (0x3250, 0x4dbf), (0x4e00, 0xa4cf), (0xac00, 0xd7a3),
   (0xf900, 0xfaff), (0xfe10, 0xfe19), (0xfe30, 0xfe6f), (0xff00, 0xff60), (0xffe0, 0xffe6)]

/-- All wide characters of East Asia. -/
def wide : Table := wideLow ++ [(0x20000, 0x2fffd), (0x30000, 0x3fffd)]

/-- A few characters of the Unicode database, version 14: category Mn, category So, and East Asian Wide. -/
def unicodeMn : List Nat := [0x0300, 0x065f, 0x0859]
def unicodeSo : List Nat := [0x00a9, 0x06de, 0x06e9]
def unicodeWide : List Nat := [0x1100, 0x4e00, 0x17000]

/-- The width that the setting asks for: measured, where a font without an answer means 2. -/
def measured (font : Int) : Int := if font < 0 then 2 else font

/-- The code pages of East Asia. -/
def EastAsia (cp : Nat) : Prop := cp ∈ [932, 936, 949, 950]

instance (t : Table) (c : Nat) : Decidable (In t c) := inferInstanceAs (Decidable (∃ p ∈ t, p.1 ≤ c ∧ c ≤ p.2))
instance (t : Table) : Decidable (Sorted t) := inferInstanceAs (Decidable (_ ∧ _))
instance (cp : Nat) : Decidable (EastAsia cp) := inferInstanceAs (Decidable (_ ∈ _))
instance (c : Nat) : Decidable (Control c) := inferInstanceAs (Decidable (_ ∧ _))

end Clink.WcWidth.Spec
