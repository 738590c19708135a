/-! What C70 says about keys. -/

namespace Clink.KeyNames.Spec

def isCtrl (c : Nat) : Prop := c < 32 ∨ c = 127
instance (c : Nat) : Decidable (isCtrl c) := by unfold isCtrl; infer_instance

/-- Keys whose names can be read: no `C-\`, and no byte beyond 127 after a single ESC. -/
def Nameable (ks : List Nat) : Prop :=
  28 ∉ ks ∧ ∀ c, ks = [27, c] → c < 128

/-- The place of keys in the list: 4 when the first one has Alt (ESC), 2 when the first key that is not ESC has Ctrl. -/
def place (ks : List Nat) : Nat :=
  (if ks.head? = some 27 then 4 else 0) + (match (ks.dropWhile (· = 27)).head? with | some c => if isCtrl c then 2 else 0 | none => 0)

end Clink.KeyNames.Spec
