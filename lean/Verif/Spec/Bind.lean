import Verif.Model.Bind

/-! What key bindings should do. -/

namespace Clink.Bind.Spec

/-- An element of a chord: a key, or (`star`) a parameter of digits. -/
structure Tok where
  key : Nat
  star : Bool
  deriving DecidableEq, Repr

/-- The chord of a call. -/
def toks (hasParams : Bool) (keys : List Nat) : List Tok := keys.map fun k => ⟨k, hasParams && k == 42⟩

/-- Keys as a chord. -/
def plain (keys : List Nat) : List Tok := keys.map fun k => ⟨k, false⟩

/-- A successful call of `bind`. -/
structure Bound where
  group : Nat
  chord : List Tok
  module : Nat
  id : Nat
  deriving DecidableEq, Repr

/-- A binder after some calls: the groups (their names are given by hashes), the chords of all calls of `bind`, and the
successful ones, in order. -/
inductive Run (esc : Option (List Nat)) : Binder → List (Option Nat × Nat) → List (Nat × List Tok) → List Bound → Prop
  | start : Run esc .start [(none, 1)] [] []
  | group {b b' : Binder} {gs : List (Option Nat × Nat)} {cs : List (Nat × List Tok)} {bs : List Bound} {hash : Option Nat} {r : Int} (h : Run esc b gs cs bs)
      (hc : b.createGroup hash = (b', r)) : Run esc b' (if r = -1 then gs else (hash, r.toNat) :: gs) cs bs
  | bind {b b' : Binder} {gs : List (Option Nat × Nat)} {cs : List (Nat × List Tok)} {bs : List Bound} {g : Nat} {text keys : List Nat} {module id : Nat} {hasParams ok : Bool}
      (h : Run esc b gs cs bs) (hg : ∃ name, (name, g) ∈ gs) (ht : (translate esc text).getD [] = keys) (hb : b.bind esc g text module id hasParams = some (b', ok)) :
      Run esc b' gs (cs ++ [(g, toks hasParams keys)]) (if ok then bs ++ [⟨g, toks hasParams keys, module, id⟩] else bs)

/-- Chords can be told apart while they are typed: where one has a parameter, no other one has a digit or `*`; and no digit
follows a parameter. -/
def Compatible (cs : List (Nat × List Tok)) : Prop :=
  (∀ g p t1 r1 t2 r2, (g, p ++ t1 :: r1) ∈ cs → (g, p ++ t2 :: r2) ∈ cs → t1.star = true → t2.star = false → isDigit t2.key = false ∧ t2.key ≠ 42) ∧
  ∀ g p t1 t2 r, (g, p ++ t1 :: t2 :: r) ∈ cs → t1.star = true → isDigit t2.key = false

/-- No chord has the key NUL. -/
def NonZero (cs : List (Nat × List Tok)) : Prop := ∀ x ∈ cs, ∀ t ∈ x.2, t.key ≠ 0

/-- What is typed does not run into a parameter. -/
def AvoidsParams (cs : List (Nat × List Tok)) (g : Nat) (ks : List Nat) : Prop :=
  ∀ p k ks' t r, ks = p ++ k :: ks' → (g, plain p ++ t :: r) ∈ cs → t.star = true → isDigit k = false ∧ k ≠ 42

/-- Chords that can be reported: they have fewer than 16 keys and the last one is an ASCII character. -/
def Reportable (chord : List Tok) : Prop := chord.length < 16 ∧ ∀ t ∈ chord.getLast?, t.key < 128

instance (chord : List Tok) : Decidable (Reportable chord) := inferInstanceAs (Decidable (_ ∧ _))

/-- The bindings for the first `n` keys, in order of registration. -/
def matching (bs : List Bound) (g : Nat) (ks : List Nat) (n : Nat) : List Bound :=
  bs.filter fun x => decide (x.group = g ∧ x.chord = plain (ks.take n) ∧ Reportable x.chord)

/-- The bindings for what was typed and for what it begins with: longer ones first, then in order of registration. -/
def candidates (bs : List Bound) (g : Nat) (ks : List Nat) : List Bound := (List.range (ks.length + 1)).reverse.flatMap (matching bs g ks)

/-- Keys are typed: `step` says that more are needed for all but the last one, and `stop` is what it says then. -/
inductive Typed (b : Binder) (r : Resolver) : List Nat → Resolver → Bool → Prop
  | nil : Typed b r [] r false
  | snoc {ks : List Nat} {k : Nat} {r1 r2 : Resolver} {stop : Bool} (h : Typed b r ks r1 false) (hs : r1.step b k = some (r2, stop)) : Typed b r (ks ++ [k]) r2 stop

/-- The bindings that are reported if none is claimed. -/
inductive Passes (b : Binder) : Resolver → List Binding → Prop
  | nil {r r' : Resolver} (h : r.next b = some (r', none)) : Passes b r []
  | cons {r r' : Resolver} {x : Binding} {xs : List Binding} (h : r.next b = some (r', some x)) (hp : Passes b r' xs) : Passes b r (x :: xs)

/-- The bindings that are reported if each one is claimed. -/
inductive Claims (b : Binder) : Resolver → List Binding → Prop
  | nil {r r' : Resolver} (h : r.next b = some (r', none)) : Claims b r []
  | cons {r r' : Resolver} {x : Binding} {xs : List Binding} (h : r.next b = some (r', some x)) (hp : Claims b (r'.claim x) xs) : Claims b r (x :: xs)

/-- Keys are split into chords: each is the longest one that is bound, and the first binding is taken for it.  A binding for
the empty chord takes one key. -/
inductive Splits (bs : List Bound) (g : Nat) : List Nat → List Bound → Prop
  | none {ks : List Nat} (h : ks = [] ∨ candidates bs g ks = []) : Splits bs g ks []
  | cons {ks : List Nat} {x : Bound} {xs l : List Bound} (hk : ks ≠ []) (h : candidates bs g ks = x :: xs) (hs : Splits bs g (ks.drop (max 1 x.chord.length)) l) : Splits bs g ks (x :: l)

/-- What is reported: the module, the id, the number of keys and the parameters. -/
def seen (b : Binder) (x : Binding) : Option Nat × Nat × Nat × Params := (b.modules[x.module]?, x.id, x.len, x.params)

/-- What should be reported for a binding without parameters. -/
def expected (x : Bound) : Option Nat × Nat × Nat × Params := (some x.module, x.id, max 1 x.chord.length, {})

/-- Keys match a chord, with values and lengths of the parameters. -/
inductive Matches : List Tok → List Nat → List (List Nat) → Prop
  | nil : Matches [] [] []
  | key {k : Nat} {c : List Tok} {ks : List Nat} {ps : List (List Nat)} (h : Matches c ks ps) : Matches (⟨k, false⟩ :: c) (k :: ks) ps
  | param {k : Nat} {c : List Tok} {d ks : List Nat} {ps : List (List Nat)} (hd : d ≠ []) (hn : ∀ x ∈ d, isDigit x = true) (h : Matches (⟨k, false⟩ :: c) ks ps) :
      Matches (⟨42, true⟩ :: ⟨k, false⟩ :: c) (d ++ ks) (d :: ps)

/-- The value of digits. -/
def value (d : List Nat) : Nat := d.foldl (fun n x => n * 10 + (x - 48)) 0

/-- The ways to write a key: as it is, `^c`, `\C-c`, `\M-`, `\M-C-c`, `\e` and the like, `\c`. -/
inductive Item
  | char (c : Nat)
  | caret (c : Nat)
  | ctrl (c : Nat)
  | metaKey
  | metaCtrl (c : Nat)
  | named (c k : Nat)
  | quoted (c : Nat)
  deriving DecidableEq, Repr

def Item.text : Item → List Nat
  | char c => [c]
  | caret c => [94, c]
  | ctrl c => [92, 67, 45, c]
  | metaKey => [92, 77, 45]
  | metaCtrl c => [92, 77, 45, 67, 45, c]
  | named c _ => [92, c]
  | quoted c => [92, c]

def Item.keys : Item → List Nat
  | char c => [c]
  | caret c => [c % 32]
  | ctrl c => [c % 32]
  | metaKey => [27]
  | metaCtrl c => [27, c % 32]
  | named _ k => [k]
  | quoted c => [c]

def Item.ok : Item → Prop
  | char c => c ≠ 94 ∧ c ≠ 92
  | named c k => (c, k) ∈ [(101, 27), (116, 9), (110, 10), (114, 13), (48, 0)]
  | quoted c => c ∉ [77, 67, 101, 116, 110, 114, 48]
  | _ => True

/-- A chord is written properly: after `\M-` there is a key, which is not written with `C-`. -/
def Written : List Item → Prop
  | [] => True
  | x :: l => x.ok ∧ (x = .metaKey → l ≠ [] ∧ ¬ [67, 45] <+: l.flatMap Item.text) ∧ Written l

end Clink.Bind.Spec
