import Verif.Spec.Matches
import Verif.Spec.Path
import Verif.Spec.MatchWild

/-! Which matches are shown for the text that was typed. -/

namespace Clink.Matches.Spec

open StrCompare (isSep key)
open MatchWild (LastComp Inst)

/-- An element without the mark for selection. -/
def plain (i : Info) : Info := { i with select := false }

/-- The last component of the text begins with a dot. -/
def Dotted (alpha : Nat → Bool) (text : List Nat) : Prop := ∃ name, LastComp (Path.Spec.rest alpha text) (46 :: name)

/-- The text without the separators at its end. -/
def Trimmed (text t : List Nat) : Prop := ∃ seps, text = t ++ seps ∧ (∀ c ∈ seps, isSep c = true) ∧ ¬ Ends t

/-- The last component of a match, which may be a directory, begins with a dot. -/
def DotFile (alpha : Nat → Bool) (text : List Nat) : Prop :=
  ∃ t name, Trimmed (Path.Spec.rest alpha text) t ∧ LastComp t (46 :: name)

/-- Hidden and system files may be left out. -/
def Allowed (e : Env) (needle : List Nat) (info : Info) : Prop :=
  (e.matchHidden = true ∨ Dotted e.alpha needle ∨ ¬ DotFile e.alpha info.text) ∧
  (info.type.system = true → e.filesSystem = true) ∧
  (info.type.system = false → info.type.hidden = true → e.matchHidden = true ∧ e.filesHidden = true)

/-- The match begins with the needle, as far as the comparison mode tells. -/
def Begins (e : Env) (needle : List Nat) (info : Info) : Prop :=
  ∃ cs ds rest, Text Utf.iter8 needle cs [] ∧ Text Utf.iter8 info.text ds rest ∧
    key e.lower ⟨e.mode, e.fuzzy, false⟩ cs <+: key e.lower ⟨e.mode, e.fuzzy, false⟩ ds

/-- How a pattern is compared with a match. -/
def args (e : Env) (info : Info) (cs ds : List Nat) : MatchWild.Args :=
  { lower := e.lower, mode := e.mode, fuzzy := e.fuzzy, dot := e.dotPrefix
    me := if info.type.base = 6 ∨ info.type.base = 7 then .atEnd else .yes, pattern := cs, file := ds }

/-- The match, without separators at the end, is an instance of the pattern. -/
def Instance (e : Env) (pattern : List Nat) (info : Info) : Prop :=
  ∃ t cs ds r r', Trimmed info.text t ∧ Text Utf.iter8 pattern cs r ∧ Text Utf.iter8 t ds r' ∧ Inst (args e info cs ds) cs ds

/-- The limits of `match_wild` (C08). -/
def PatternOk (e : Env) (pattern : List Nat) (infos : List Info) : Prop :=
  (∀ cs r, Text Utf.iter8 pattern cs r → MatchWild.starGroups false cs ≤ 10 ∧ MatchWild.NoAdj cs) ∧
  ∀ text ∈ infos.map (·.text), ∀ t ds r, Trimmed text t → Text Utf.iter8 t ds r → MatchWild.NoAdj ds

/-- The first attempt. -/
def First (e : Env) (needle : List Nat) (info : Info) : Prop :=
  if e.dotPrefix = true ∨ e.wild = true then Allowed e (needle ++ [42]) info ∧ Instance e (needle ++ [42]) info
  else Allowed e needle info ∧ Begins e needle info

/-- The text may also be looked for inside of matches. -/
def MayContain (e : Env) (needle : List Nat) : Prop :=
  e.substring = true ∧ needle ≠ [] ∧ needle.head? ≠ some 126 ∧ needle.head? ≠ some 42 ∧
  (e.wild = true ∨ ∃ p n, needle = p ++ List.replicate n 42 ∧ 42 ∉ p ∧ 63 ∉ p)

/-- The pattern for that: a star before the last component. -/
def Inside (needle append pattern : List Nat) : Prop :=
  ∃ pre name, needle = pre ++ name ∧ LastComp needle name ∧ pattern = pre ++ 42 :: name ++ append

/-- The second attempt. -/
def Second (e : Env) (needle append : List Nat) (info : Info) : Prop :=
  ∃ pattern, Inside needle append pattern ∧ Allowed e pattern info ∧ Instance e pattern info

/-- The matches for the needle. -/
def Fits (e : Env) (needle : List Nat) (infos : List Info) (info : Info) : Prop :=
  First e needle info ∨ ((¬ ∃ i ∈ infos, First e needle i) ∧ MayContain e needle ∧ Second e needle [42] info)

/-- The needle after expansion of a tilde.  A separator after the home directory is removed if nothing follows the tilde. -/
inductive Expanded (e : Env) : List Nat → List Nat → Prop where
  | same {needle} (h : needle.head? = some 126 → e.tilde needle = none) : Expanded e needle needle
  | home {out out'} (h : e.tilde [126] = some out) (hs : Path.maybeStripLastSeparator e.alpha out = some out') : Expanded e [126] out'
  | tilde {c more out} (h : e.tilde (126 :: c :: more) = some out) : Expanded e (126 :: c :: more) out

/-- What is assumed of a needle: it can be decoded, and the limits of `match_wild` are kept. -/
structure NeedleOk (e : Env) (needle : List Nat) (infos : List Info) : Prop where
  clean : 0 ∉ needle
  decodes : e.dotPrefix = false → e.wild = false → ∃ cs, Text Utf.iter8 needle cs []
  first : e.dotPrefix = true ∨ e.wild = true → PatternOk e (needle ++ [42]) infos
  second : MayContain e needle → ∀ pattern, Inside needle [42] pattern → PatternOk e pattern infos

/-- Texts of the same length that count as equal. -/
def Alike (e : Env) (cs ds : List Nat) : Prop :=
  cs.map (StrCompare.canon e.lower ⟨e.mode, e.fuzzy, false⟩) = ds.map (StrCompare.canon e.lower ⟨e.mode, e.fuzzy, false⟩)

/-- The matches that are left when the list is restricted to a pattern. -/
def Stays (e : Env) (needle : List Nat) (infos : List Info) (info : Info) : Prop :=
  (Allowed e needle info ∧ Instance e needle info) ∨
  ((¬ ∃ i ∈ infos, Allowed e needle i ∧ Instance e needle i) ∧ MayContain e needle ∧ Second e needle [] info)

/-- The same assumptions for restriction. -/
structure PatternNeedleOk (e : Env) (needle : List Nat) (infos : List Info) : Prop where
  clean : 0 ∉ needle
  first : PatternOk e needle infos
  second : MayContain e needle → ∀ pattern, Inside needle [] pattern → PatternOk e pattern infos

/-- Those of the list for which `P` holds, in order. -/
def Picks (P : Info → Prop) (l out : List Info) : Prop :=
  ∃ sel : Info → Bool, (∀ i ∈ l, sel i = true ↔ P i) ∧ out.map plain = (l.filter sel).map plain

/-- The same in any order. -/
def Collects (P : Info → Prop) (l out : List Info) : Prop :=
  ∃ sel : Info → Bool, (∀ i ∈ l, sel i = true ↔ P i) ∧ (out.map plain).Perm ((l.filter sel).map plain)

/-- An order as `std::sort` needs it: a strict weak order. -/
structure Weak {α : Type} (lt : α → α → Bool) : Prop where
  asymm : ∀ a b, lt a b = true → lt b a = false
  trans : ∀ a b c, lt a c = true → lt a b = true ∨ lt b c = true

/-- What is assumed of `std::sort`. -/
structure SorterOk (sorter : (Info → Info → Bool) → List Info → List Info) : Prop where
  perm : ∀ lt l, (sorter lt l).Perm l
  sorted : ∀ lt l, Weak lt → (sorter lt l).Pairwise fun a b => lt b a = false

/-- What can be done with a complete list. -/
inductive Step where
  | select (needle : List Nat)
  | sort

def steps (e : Env) (sorter : (Info → Info → Bool) → List Info → List Info) (less : Info → Info → Bool) (s : State) : List Step → Option State
  | [] => some s
  | .select needle :: l => (s.select e needle).bind fun s => steps e sorter less s l
  | .sort :: l => steps e sorter less (s.sort sorter less) l

/-- The matches that are shown. -/
def shown (s : State) : List Info := s.infos.take s.count

/-- What counts as a directory when matches are sorted. -/
def IsDir (text : List Nat) (t : MType) : Prop := t.base = 7 ∨ (t.base = 1 ∧ t.hist = false ∧ Ends text)

end Clink.Matches.Spec
