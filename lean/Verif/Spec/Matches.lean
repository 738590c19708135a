import Verif.Model.Matches

/-! What the list of matches should hold. -/

namespace Clink.Matches.Spec

open StrCompare (isSep)

/-- An empty list.  `old` is for generators that do not give types. -/
def start (sep : Nat) (old : Bool) : State := { sep := sep, deprecated := old }

/-- What generators do while they build the list. -/
inductive Op where
  | add (d : Desc) (already : Bool)
  | files (b : Bool)
  | slashes (mode : Nat)

/-- All the steps, with what `add` returns. -/
def run (alpha : Nat → Bool) (mode : Nat) (s : State) : List Op → Option (State × List Bool)
  | [] => some (s, [])
  | .add d already :: ops => (s.add alpha mode d already).bind fun r => (run alpha mode r.1 ops).map fun q => (q.1, r.2 :: q.2)
  | .files b :: ops => run alpha mode (s.setFiles b) ops
  | .slashes m :: ops => run alpha m s ops

/-- A match. -/
structure Entry where
  text : List Nat
  type : MType
  deriving DecidableEq, Repr

/-- A drive without a directory, also after `\\?\`. -/
def bareDrive (alpha : Nat → Bool) : List Nat → Bool
  | [c, 58] => alpha c
  | a :: b :: 63 :: d :: r =>
    isSep a && isSep b && isSep d && (match r.dropWhile isSep with | [c, 58] => alpha c | _ => false)
  | _ => false

/-- The text ends with a separator. -/
def Ends (text : List Nat) : Prop := text.getLast?.any isSep = true

instance (text : List Nat) : Decidable (Ends text) := inferInstanceAs (Decidable (_ = _))

/-- The match that is meant by what is added.  An unknown match (type 1) that ends with a separator is a directory (type 7).
A directory gets a separator at its end.  In directories and files (type 6) all separators are replaced by the wanted one, if
there is one. -/
structure Meant (alpha : Nat → Bool) (mode sep : Nat) (files already : Bool) (text : List Nat) (type : MType) (e : Entry) : Prop where
  kind : e.type = if Ends text ∧ type.base = 1 ∧ type.hist = false then { type with base := 7 } else type
  text : ∃ t, (if e.type.base = 7 ∧ ¬ Ends text ∧ bareDrive alpha text = false then t = text ++ [92] else t = text) ∧
    e.text =
      if (2 ≤ mode ∨ (mode = 1 ∧ already = false)) ∧ (e.type.base = 7 ∨ e.type.base = 6 ∨ (e.type.base = 1 ∧ files = true ∧ e.type.hist = true)) then
        t.map fun c => if isSep c then (if mode = 2 then 47 else if mode = 4 ∧ sep ≠ 0 then sep else 92) else c
      else t

/-- What is meant by each `add`; nothing for an empty text.  `files` is whether file names are completed. -/
inductive Offers (alpha : Nat → Bool) (sep : Nat) : (mode : Nat) → (files : Bool) → List Op → List (Option (Desc × Entry)) → Prop where
  | nil {mode files} : Offers alpha sep mode files [] []
  | empty {mode files d already ops es} (hd : d.text = none ∨ d.text = some []) (h : Offers alpha sep mode files ops es) :
      Offers alpha sep mode files (.add d already :: ops) (none :: es)
  | add {mode files d already text e ops es} (hd : d.text = some text) (hne : text ≠ []) (he : Meant alpha mode sep files already text d.type e)
      (h : Offers alpha sep mode files ops es) : Offers alpha sep mode files (.add d already :: ops) (some (d, e) :: es)
  | files {mode files b ops es} (h : Offers alpha sep mode b ops es) : Offers alpha sep mode files (.files b :: ops) es
  | slashes {mode files m ops es} (h : Offers alpha sep m files ops es) : Offers alpha sep mode files (.slashes m :: ops) es

/-- Two matches count as the same one. -/
def Same (a b : Entry) : Prop := a.text = b.text ∧ (a.type = b.type ∨ a.type.hist = true ∨ b.type.hist = true)

/-- The matches to keep: those that are not the same as one that was kept before. -/
def Keeps (es : List (Option (Desc × Entry))) (keep : List Bool) : Prop :=
  keep.length = es.length ∧
    ∀ i : Nat, keep[i]? = some true ↔
      ∃ (d : Desc) (e : Entry), es[i]? = some (some (d, e)) ∧
        ∀ (j : Nat) (d' : Desc) (f : Entry), j < i → keep[j]? = some true → es[j]? = some (some (d', f)) → ¬ Same f e

/-- Those that are kept. -/
def chosen (es : List (Option (Desc × Entry))) (keep : List Bool) : List (Desc × Entry) :=
  (es.zip keep).filterMap fun x => if x.2 then x.1 else none

/-- An element of the list shows what was added. -/
structure Shows (info : Info) (n : Nat) (d : Desc) (e : Entry) : Prop where
  text : info.text = e.text
  type : info.type = e.type
  ordinal : info.ordinal = n
  display : info.display = if d.display = some [] then none else d.display
  description : info.description = if d.description = some [] then none else d.description
  appendChar : info.appendChar = d.appendChar
  suppress : info.suppress = d.suppress
  appendDisplay : info.appendDisplay = true ↔ d.appendDisplay = true ∧ info.display ≠ none

def entry (info : Info) : Entry := ⟨info.text, info.type⟩

/-- The first one of each entry, in order. -/
structure Firsts (es : List Entry) (out : List Entry) : Prop where
  nodup : out.Nodup
  all : ∀ e, e ∈ out ↔ e ∈ es
  order : out.Pairwise fun e f => es.idxOf e < es.idxOf f

/-- An unknown match becomes what the file system says about it. -/
def fixed (probe : List Nat → MType) (sep : Nat) (e : Entry) : Entry :=
  if e.type.base = 1 ∧ e.type.hist = false then
    ⟨if (probe e.text).base = 7 ∧ sep ≠ 0 then e.text ++ [sep] else e.text, probe e.text⟩
  else e

/-- The same for an element of the list. -/
def fix (probe : List Nat → MType) (sep : Nat) (info : Info) : Info :=
  { info with text := (fixed probe sep (entry info)).text, type := (fixed probe sep (entry info)).type }

/-- What generators have said about file names, if anything. -/
def asked : List Op → Option Bool
  | [] => none
  | .files b :: ops => some ((asked ops).getD b)
  | _ :: ops => asked ops

/-- Whether unknown matches are looked up in the file system. -/
def Completes (old : Bool) (ops : List Op) : Prop := if old then asked ops = some true else asked ops ≠ some false

instance (old : Bool) (ops : List Op) : Decidable (Completes old ops) := by
  unfold Completes
  infer_instance

/-- The separator for directories that are found in the file system. -/
def dirSep (mode sep : Nat) : Nat := if mode = 2 then 47 else if mode = 4 then sep else 92

/-- What the file system says: a file or a directory. -/
def ProbeOk (probe : List Nat → MType) : Prop := ∀ t, (probe t).hist = false ∧ (probe t).base ≠ 1

end Clink.Matches.Spec
