import Verif.Spec.TermIn
import Verif.Spec.Ecma48
/-
What a request to the terminal should do: find the answer among what is typed, take it out, and lose nothing else.
-/
namespace Clink.TermReq.Spec
open Clink.TermIn Clink.TermIn.Spec
open Clink.Utf (IsText)
open Clink.Doskey.Spec (flat)
open Clink.Ecma48.Spec (Param Middle Final Printable)

/-- A record that gives bytes by itself; so it is not one half of a pair. -/
def Alone (g : Cfg) (r : Record) : Prop := ∃ b, Gives g 0 [r] b

/-- The Esc character comes from the Esc key, or from no key at all, without ctrl and alt. -/
def PlainEsc : Record → Prop
  | .key k => k.ch = 27 → (k.vk = 27 ∨ k.vk = 0) ∧ k.flags.ctrl = false ∧ k.flags.alt = false
  | _ => True

/-- `CSI`, parameters, and so on. -/
def Csi (w : List Nat) : Prop :=
  ∃ ps is f, w = 27 :: 91 :: (ps ++ is ++ [f]) ∧ (∀ c ∈ ps, Param c) ∧ (∀ c ∈ is, Middle c) ∧ Final f

/-- The answer to a request. -/
def Answers (pre : List Nat) (f : Nat) (w : List Nat) : Prop := pre <+: w ∧ w.getLast? = some f

/-- What is typed: text, control characters, ESC with a letter, a control sequence that cannot be taken for the answer. -/
inductive Item (pre : List Nat) (f : Nat) : List Nat → Prop
  | text {c} (h : Printable c) (ht : IsText c) : Item pre f [c]
  | control {c} (h : 0 < c) (hc : c < 32) (he : c ≠ 27) : Item pre f [c]
  | lower {c} (h : 0x60 ≤ c) (hc : c ≤ 0x7f) : Item pre f [27, c]
  | upper {c} (h : 0x40 ≤ c) (hc : c ≤ 0x5f) (hn : c ∉ [0x50, 0x58, 0x5b, 0x5d, 0x5e, 0x5f]) : Item pre f [27, c]
  | csi {w} (h : Csi w) (hn : w.getLast? ≠ some f ∨ ¬ pre <+: w ∧ ¬ w <+: pre) : Item pre f w

/-- `Typed g pre f rs ws`: the records give `ws`.  No Esc key is among them. -/
inductive Typed (g : Cfg) (pre : List Nat) (f : Nat) : List Record → List (List Nat) → Prop
  | nil : Typed g pre f [] []
  | quiet {r : Record} {rs : List Record} {ws : List (List Nat)} (h : Quiet g r) (hr : Typed g pre f rs ws) : Typed g pre f (r :: rs) ws
  | key {k : Key} {rs : List Record} {vs ws : List (List Nat)} (h : Gives g 0 [.key k] (flat vs.flatten)) (hk : k.ch ≠ 27)
      (hv : ∀ v ∈ vs, Item pre f v) (hr : Typed g pre f rs ws) : Typed g pre f (.key k :: rs) (vs ++ ws)

/-- `Sent g rs w`: the records give `w`, one byte for a key, while a request is on its way. -/
inductive Sent (g : Cfg) : List Record → List Nat → Prop
  | nil : Sent g [] []
  | quiet {r : Record} {rs : List Record} {w : List Nat} (h : Quiet g r) (hr : Sent g rs w) : Sent g (r :: rs) w
  | key {k : Key} {rs : List Record} {b : Nat} {w : List Nat} (h : act g true true k = .chars [b]) (hb : b < 128)
      (hh : heard g.keys [b] = [b]) (hr : Sent g rs w) : Sent g (.key k :: rs) (b :: w)

end Clink.TermReq.Spec
