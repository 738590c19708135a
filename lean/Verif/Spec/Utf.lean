/- Specification vocabulary for C01-C04, written from the Unicode standard and
independent of the model. -/
namespace Clink.Utf

/-- UTF-8 of one scalar value, written with division and remainder as in the Unicode
standard (table 3-6).  Specification, independent of the code. -/
def specUtf8 (c : Nat) : List Nat :=
  if c < 0x80 then [c]
  else if c < 0x800 then [0xC0 + c / 64, 0x80 + c % 64]
  else if c < 0x10000 then [0xE0 + c / 4096, 0x80 + c / 64 % 64, 0x80 + c % 64]
  else [0xF0 + c / 262144, 0x80 + c / 4096 % 64, 0x80 + c / 64 % 64, 0x80 + c % 64]

/-- UTF-16 of one scalar value, as in the Unicode standard (table 3-5). Specification. -/
def specUtf16 (c : Nat) : List Nat :=
  if c < 0x10000 then [c]
  else [0xD800 + (c - 0x10000) / 1024, 0xDC00 + (c - 0x10000) % 1024]

/-- A Unicode scalar value other than NUL. Specification. -/
def IsText (c : Nat) : Prop := 0 < c ∧ c < 0x110000 ∧ ¬ (0xD800 ≤ c ∧ c ≤ 0xDFFF)

instance (c : Nat) : Decidable (IsText c) := by unfold IsText; infer_instance

/-- Text before the first NUL (what a C string reader may look at). Specification. -/
def cstr (l : List Nat) : List Nat := l.takeWhile (· != 0)

end Clink.Utf
