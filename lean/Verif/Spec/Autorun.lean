import Verif.Model.Autorun

/-! What commands of an AutoRun value belong to the program. -/

namespace Clink.Autorun.Spec

open Color (bs)

/-- The program is called in a text: `x` is before the call and `y` is after it. -/
def Calls (v x y : List Nat) : Prop :=
  ∃ program ∈ [bs "clink", bs "clink_x64.exe", bs "clink_x86.exe", bs "clink_arm64.exe", bs "clink.bat"], ∃ quote ∈ [[], bs "\""],
    v = x ++ program ++ quote ++ bs " inject" ++ y

/-- A text that does not call the program. -/
def Foreign (v : List Nat) : Prop := ∀ x y, ¬ Calls v x y

/-- A command that calls the program by a path in quotes. -/
structure IsEntry (e : List Nat) : Prop where
  calls : ¬ Foreign e
  quoted : ∀ x y, Calls e x y → 38 ∉ y ∧ ∃ sp p, x = sp ++ 34 :: p ∧ 38 ∉ sp ∧ (34 ∉ p ∨ 38 ∉ p)

/-- Characters between commands. -/
def Gap (c : Nat) : Prop := (9 ≤ c ∧ c ≤ 13) ∨ c = 32 ∨ c = 38

/-- What is kept of the text before an entry: the `&` or `&&` before the entry is dropped. -/
inductive Kept : List Nat → List Nat → Prop where
  | start : Kept [] []
  | first : Kept [38] []
  | one {a} (hne : a ≠ []) (h : a.getLast? ≠ some 38) : Kept (a ++ [38]) a
  | two {a} : Kept (a ++ [38, 38]) a

/-- A text without the gap at its beginning, if there is anything else. -/
inductive Trimmed : List Nat → Option (List Nat) → Prop where
  | none {l} (h : ∀ c ∈ l, Gap c) : Trimmed l none
  | some {lead w} (hl : ∀ c ∈ lead, Gap c) (hne : w ≠ []) (hw : ∀ c, w.head? = some c → ¬ Gap c) : Trimmed (lead ++ w) (some w)

/-- What is left of a value after an entry was added and removed: gaps at the beginning and one `&` at the end are lost. -/
inductive Core : List Nat → Option (List Nat) → Prop where
  | none {u} (h : ∀ c ∈ u, Gap c) : Core u none
  | some {lead w} (hl : ∀ c ∈ lead, Gap c) (hne : w ≠ []) (hw : ∀ c, w.head? = some c → ¬ Gap c) (he : w.getLast? ≠ some 38) : Core (lead ++ w) (some w)
  | amp {lead w} (hl : ∀ c ∈ lead, Gap c) (hne : w ≠ []) (hw : ∀ c, w.head? = some c → ¬ Gap c) : Core (lead ++ w ++ [38]) (some w)

end Clink.Autorun.Spec
