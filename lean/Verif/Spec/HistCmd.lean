/-! What C68 says, in the words of the help of `clink history` and docs/clink.md. -/

namespace Clink.HistCmd.Spec

abbrev Text := List Nat

def bytes (s : String) : Text := s.toList.map Char.toNat

/-- The options, without help. -/
inductive Opt
  | bare | diag | unique | showTime | noShowTime
  | timeFormat (t : Text)
deriving Repr, DecidableEq

def Opt.name : Opt → Text
  | .bare => bytes "--bare" | .diag => bytes "--diag" | .unique => bytes "--unique"
  | .showTime => bytes "--show-time" | .noShowTime => bytes "--no-show-time" | .timeFormat _ => bytes "--time-format"

/-- Options can be shortened to three characters. -/
def Short (full a : Text) : Prop := 3 ≤ a.length ∧ ∃ rest, full = a ++ rest

def Help (a : Text) : Prop := Short (bytes "--help") a ∨ a = bytes "-h" ∨ a = bytes "-?"

/-- A word that is no option. -/
def Plain (a : Text) : Prop := ¬ Help a ∧ ∀ o : Opt, ¬ Short o.name a

/-- Arguments, their options and the other words: options can be anywhere. -/
inductive Reads : List Text → List Opt → List Text → Prop
  | nil : Reads [] [] []
  | opt {a as os ws} (o : Opt) : (∀ t, o ≠ .timeFormat t) → Short o.name a → Reads as os ws → Reads (a :: as) (o :: os) ws
  | format {a as os ws} (t : Text) : Short (bytes "--time-format") a → Reads as os ws → Reads (a :: t :: as) (.timeFormat t :: os) ws
  | word {a as os ws} : Plain a → Reads as os ws → Reads (a :: as) os (a :: ws)

/-- Whether the options say that times are shown or not; the last one counts. -/
def times (os : List Opt) : Option Bool :=
  os.foldl (fun r o => match o with | .showTime => some true | .timeFormat _ => some true | .noShowTime => some false | _ => r) none

/-- The format of the times; the last one counts. -/
def format (os : List Opt) : Option Text :=
  os.foldl (fun r o => match o with | .timeFormat t => some t | _ => r) none

/-- Times are to be shown: an option says so, or the setting is `show` (2) and no option says otherwise. -/
def timesShown (setting : Nat) (os : List Opt) : Bool := (times os).getD (setting == 2)

/-! Words -/

def lowered (l : Text) : Text := l.map (fun c => if 65 ≤ c ∧ c ≤ 90 then c + 32 else c)

/-- Digits and the number they mean. -/
def IsDigits (t : Text) : Prop := t ≠ [] ∧ ∀ c ∈ t, 48 ≤ c ∧ c ≤ 57
def value (t : Text) : Nat := t.foldl (fun n c => n * 10 + (c - 48)) 0

/-- Words joined with blanks; empty ones at the beginning do not count. -/
def joined (ws : List Text) : Text := [32].intercalate (ws.dropWhile (· = []))

/-- What can be asked for. -/
inductive Wish
  | all | last (n : Nat) | clear | delete (n : Int) | add (line : Text) | expand (line : Text) | compact (limit : Option Nat)
deriving Repr, DecidableEq

/-- What the words ask for: verbs in any case, or the options of bash. -/
inductive Asks : List Text → Wish → Prop
  | all : Asks [] .all
  | last (t : Text) : IsDigits t → value t < 4294967295 → Asks [t] (.last (value t))
  | clear (v : Text) (ws : List Text) : lowered v = bytes "clear" → Asks (v :: ws) .clear
  | delete (v t : Text) (ws : List Text) : lowered v = bytes "delete" → IsDigits t → value t < 2147483648 →
      Asks (v :: t :: ws) (.delete (value t))
  | deleteBack (v t : Text) (ws : List Text) : lowered v = bytes "delete" → IsDigits t → value t < 2147483648 →
      Asks (v :: (45 :: t) :: ws) (.delete (-(value t : Int)))
  | add (v : Text) (ws : List Text) : lowered v = bytes "add" → joined ws ≠ [] → Asks (v :: ws) (.add (joined ws))
  | expand (v : Text) (ws : List Text) : lowered v = bytes "expand" → joined ws ≠ [] → Asks (v :: ws) (.expand (joined ws))
  | compact (v : Text) : lowered v = bytes "compact" → Asks [v] (.compact none)
  | compactTo (v t : Text) (ws : List Text) : lowered v = bytes "compact" → IsDigits t → value t < 2147483648 →
      Asks (v :: t :: ws) (.compact (some (value t)))
  | bashClear (ws : List Text) : Asks (bytes "-c" :: ws) .clear
  | bashDelete (t : Text) (ws : List Text) : IsDigits t → value t < 2147483648 → Asks (bytes "-d" :: t :: ws) (.delete (value t))
  | bashDeleteBack (t : Text) (ws : List Text) : IsDigits t → value t < 2147483648 →
      Asks (bytes "-d" :: (45 :: t) :: ws) (.delete (-(value t : Int)))
  | bashAdd (ws : List Text) : joined ws ≠ [] → Asks (bytes "-s" :: ws) (.add (joined ws))
  | bashExpand (ws : List Text) : joined ws ≠ [] → Asks (bytes "-p" :: ws) (.expand (joined ws))

/-- Words that ask for nothing that there is. -/
inductive Wrong : List Text → Prop
  | deleteWhat (v : Text) : lowered v = bytes "delete" → Wrong [v]
  | addWhat (v : Text) (ws : List Text) : lowered v = bytes "add" ∨ lowered v = bytes "expand" → joined ws = [] → Wrong (v :: ws)
  | compactWhat (v : Text) (c : Nat) (t : Text) (ws : List Text) : lowered v = bytes "compact" → ¬ (48 ≤ c ∧ c ≤ 57) → Wrong (v :: (c :: t) :: ws)
  | noVerb (v : Text) (ws : List Text) : v.head? ≠ some 45 →
      (∀ k ∈ ["clear", "compact", "delete", "add", "expand"], lowered v ≠ bytes k) → (ws ≠ [] ∨ ∃ c ∈ v, ¬ (48 ≤ c ∧ c ≤ 57)) → Wrong (v :: ws)
  | noOption (c : Nat) (t : Text) (ws : List Text) : c ∉ bytes "cdps" → (c = 45 → t ≠ []) → Wrong ((45 :: c :: t) :: ws)
  | bashDeleteWhat : Wrong [bytes "-d"]
  | bashAddWhat (v : Text) (ws : List Text) : v = bytes "-s" ∨ v = bytes "-p" → joined ws = [] → Wrong (v :: ws)

/-- The place (from 0) of the line that is meant with the number `n`: from 1, or from the end with -1. -/
def target (len : Nat) (n : Int) : Option Nat :=
  if 1 ≤ n ∧ n ≤ len then some (n.toNat - 1) else if -(len : Int) ≤ n ∧ n < 0 then some (len - (-n).toNat) else none

/-! Lines -/

/-- The last `n`. -/
def lastOf {α : Type} (n : Nat) (l : List α) : List α := l.drop (l.length - n)

/-- A control character is shown as `^` and a letter; tabs stay. -/
def visible (c : Nat) : Text := if c < 32 ∧ c ≠ 9 then [94, c + 64] else [c]

/-- The number of a line: at least five characters wide, and two blanks. -/
def Numbered (n : Nat) (t : Text) : Prop :=
  ∃ k d, t = List.replicate k 32 ++ d ++ [32, 32] ∧ IsDigits d ∧ value d = n ∧ (d.head? = some 48 → n = 0) ∧
    k = 5 - d.length

end Clink.HistCmd.Spec
