import Verif.Model.MatchWild
import Verif.Spec.StrCompare
/- What it means for a text to be an instance of a wildcard pattern. -/
namespace Clink.MatchWild
open Clink.StrCompare

/-- Two characters count as the same. -/
def Eqv (a : Args) (c d : Nat) : Prop :=
  canon a.lower ⟨a.mode, a.fuzzy, false⟩ c = canon a.lower ⟨a.mode, a.fuzzy, false⟩ d

/-- `q` is the last component of `l` (what follows the last separator). -/
def LastComp (l q : List Nat) : Prop :=
  (∀ c ∈ q, isSep c = false) ∧ (q = l ∨ ∃ pre s, isSep s = true ∧ l = pre ++ s :: q)

/-- A run of characters a star may stand for: anything if stars match everything, otherwise
anything without separators. -/
def StarRun (a : Args) (r : List Nat) : Prop := a.me = .yes ∨ ∀ c ∈ r, isSep c = false

/-- `Inst a p f`: the text `f` is an instance of the pattern `p`.
* `?` stands for one character that is not a separator, or for nothing at the end of the text;
* a group of wildcards beginning with `*` stands for any run;
* at the end of the pattern such a group stands for everything (if that mode is on);
* separators match separators, in any number;
* other characters match themselves;
* with `dot_prefix`, leading dots of the last component may be left out where the last
  component of the pattern has a wildcard and begins with an ordinary character other than a dot. -/
inductive Inst (a : Args) : List Nat → List Nat → Prop where
  | nil : Inst a [] []
  | one {p d f} (hd : isSep d = false) (h : Inst a p f) : Inst a (63 :: p) (d :: f)
  | missing {p} (h : Inst a p []) : Inst a (63 :: p) []
  | star {w p r f} (hw : ∀ c ∈ w, wild c = true) (hr : StarRun a r) (h : Inst a p f) :
      Inst a (42 :: w ++ p) (r ++ f)
  | all {w f} (hw : ∀ c ∈ w, wild c = true) (hm : a.me ≠ .no) : Inst a (42 :: w) f
  | sep {c s p d t f} (hc : isSep c = true) (hd : isSep d = true) (hs : ∀ x ∈ s, isSep x = true)
      (ht : ∀ x ∈ t, isSep x = true) (h : Inst a p f) : Inst a (c :: s ++ p) (d :: t ++ f)
  | lit {c p d f} (hc : wild c = false) (hs : isSep c = false) (he : Eqv a c d) (h : Inst a p f) :
      Inst a (c :: p) (d :: f)
  | dots {c p t f} (hdot : a.dot = true) (hc : wild c = false) (hc' : c ≠ 46)
      (hp : LastComp a.pattern (c :: p)) (hf : LastComp a.file (t ++ f)) (hw : ∃ x ∈ p, wild x = true)
      (ht : ∀ x ∈ t, x = 46) (h : Inst a (c :: p) f) : Inst a (c :: p) (t ++ f)

/-- Number of groups of wildcards that begin with a star. -/
def starGroups (inGroup : Bool) : List Nat → Nat
  | [] => 0
  | c :: p =>
    if c = 42 then (if inGroup then 0 else 1) + starGroups true p
    else if c = 63 then starGroups inGroup p
    else starGroups false p

/-- No two separators in a row. -/
def NoAdj : List Nat → Prop
  | [] => True
  | [_] => True
  | a :: b :: l => ¬ (isSep a = true ∧ isSep b = true) ∧ NoAdj (b :: l)

/-- What is assumed of `CharLowerW`: separators and the dot are not letters. -/
structure CharsOk (lower : Nat → Nat) : Prop extends LowerOk lower where
  dot : ∀ c, lower c = 46 ↔ c = 46

end Clink.MatchWild
