import Verif.Proof.TermInText

/-!
The sequences of cursor and function keys.
-/

namespace Clink.TermIn
open Spec Clink.Utf

def navList : List Nat := [38, 40, 39, 37, 36, 35, 45, 46, 33, 34]
def fnList : List Nat := [0x70, 0x71, 0x72, 0x73, 0x74, 0x75, 0x76, 0x77, 0x78, 0x79, 0x7A, 0x7B]

theorem nav_eq : ∀ vk ∈ navList, ∀ a b c d e o : Bool, namedSeq vk (keymodIndex ⟨a, b, c, d, e, o⟩) = keySeq vk ⟨a, b, c, d, e, o⟩ := by
  decide +kernel

theorem fn_eq : ∀ vk ∈ fnList, ∀ a b c d e o : Bool, some (kfx (keymodIndex ⟨a, b, c, d, e, o⟩) (vk - 0x70)) = keySeq vk ⟨a, b, c, d, e, o⟩ := by
  decide +kernel

theorem find_mem {α : Type} {l : List (Nat × α)} {vk : Nat} {x : Nat × α} (h : (l.find? fun e => e.1 = vk) = some x) : x ∈ l ∧ x.1 = vk :=
  ⟨List.mem_of_find?_eq_some h, by simpa using List.find?_some h⟩

theorem keySeq_vk {vk : Nat} {f : Flags} {q : List Nat} (h : keySeq vk f = some q) : vk ∈ navList ∨ vk ∈ fnList := by
  unfold keySeq at h
  split at h
  · rename_i x hx
    left
    obtain ⟨h1, h2⟩ := find_mem hx
    subst h2
    have : ∀ x ∈ cursorKeys, x.1 ∈ navList := by decide
    exact this x h1
  · split at h
    · rename_i x hx
      left
      obtain ⟨h1, h2⟩ := find_mem hx
      subst h2
      have : ∀ x ∈ editKeys, x.1 ∈ navList := by decide
      exact this x h1
    · split at h
      · right
        rename_i hh
        simp only [fnList, List.mem_cons, List.not_mem_nil, or_false]
        omega
      · cases h

theorem keySeq_three : ∀ vk ∈ navList ++ fnList, ∀ a b c d e o : Bool,
    keySeq vk ⟨a, b, c, d, e, o⟩ = keySeq vk { shift := e, lctrl := c || d, lalt := a || b } := by decide +kernel

def All8 (p : Bool → Bool → Bool → Bool) : Bool :=
  [false, true].all fun a => [false, true].all fun b => [false, true].all fun c => p a b c

theorem All8.all {p : Bool → Bool → Bool → Bool} (h : All8 p = true) (a b c : Bool) : p a b c = true := by
  simp only [All8, List.all_cons, List.all_nil, Bool.and_true, Bool.and_eq_true] at h
  cases a <;> cases b <;> cases c <;> simp [h]

def apart (v w : Nat) (a b c x y z : Bool) : Bool :=
  match keySeq v { shift := a, lctrl := b, lalt := c }, keySeq w { shift := x, lctrl := y, lalt := z } with
  | some p, some q => !p.isPrefixOf q || (v == w && a == x && b == y && c == z)
  | _, _ => false

theorem apart_all : ((navList ++ fnList).all fun v => (navList ++ fnList).all fun w =>
    All8 fun a b c => All8 fun x y z => apart v w a b c x y z) = true := by decide +kernel

end Clink.TermIn
