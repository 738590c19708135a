import Verif.Spec.Utf
import Verif.Spec.Color
import Verif.Spec.StrCompare
import Verif.Model.Settings

/-! What options of settings and lines of the settings file are. -/

namespace Clink.Settings.Spec

open Color.Spec (Decimal)
open Color (bs)

/-- Text in UTF-8. -/
inductive Utf8 : List Nat → Prop where
  | nil : Utf8 []
  | cons {c l} (hc : Utf.IsText c) (h : Utf8 l) : Utf8 (Utf.specUtf8 c ++ l)

/-- Names that are separated by commas; the last one is not empty. -/
inductive Options : List Nat → List (List Nat) → Prop where
  | last {w} (hne : w ≠ []) (h : 44 ∉ w) : Options w [w]
  | more {w t ws} (h : 44 ∉ w) (ht : Options t ws) : Options (w ++ 44 :: t) (w :: ws)

/-- All of a text is read as the code points `cs`. -/
def Reads (l cs : List Nat) : Prop := ∃ suf, Text Utf.iter8 l cs suf ∧ Utf.more suf = false

/-- Texts are the same if case is ignored (and the two kinds of slashes are taken as equal). -/
def Same (lower : Nat → Nat) (a b : List Nat) : Prop :=
  ∃ cs ds, Reads a cs ∧ Reads b ds ∧ StrCompare.key lower ⟨1, false, false⟩ cs = StrCompare.key lower ⟨1, false, false⟩ ds

/-- What is assumed of `atoi`: numbers end at another character; they are limited to 32 bits. -/
structure AtoiOk (atoi : List Nat → Int) : Prop where
  range : ∀ w : List Nat, -2147483648 ≤ atoi w ∧ atoi w < 2147483648
  pos : ∀ {w : List Nat} {n : Nat} {rest : List Nat}, Decimal w n → (∀ c, rest.head? = some c → ¬ (48 ≤ c ∧ c ≤ 57)) →
    atoi (w ++ rest) = if n < 2147483648 then (n : Int) else 2147483647
  neg : ∀ {w : List Nat} {n : Nat} {rest : List Nat}, Decimal w n → (∀ c, rest.head? = some c → ¬ (48 ≤ c ∧ c ≤ 57)) →
    atoi (45 :: (w ++ rest)) = if n < 2147483648 then -(n : Int) else -2147483648

/-- A text picks an option by its number or by its name. -/
def Picks (lower : Nat → Nat) (names : List (List Nat)) (value : List Nat) (k : Nat) : Prop :=
  ∃ name, names[k]? = some name ∧ (Decimal value k ∨ Same lower name value)

/-! ### The settings file -/

/-- White space. -/
def Space (c : Nat) : Prop := (9 ≤ c ∧ c ≤ 13) ∨ c = 32

/-- One line of text. -/
structure LineOk (l : List Nat) : Prop where
  utf8 : Utf8 l
  nl : 10 ∉ l
  cr : 13 ∉ l

/-- A value can be written after the equals sign if it has no white space at its beginning. -/
structure ValueOk (v : List Nat) : Prop extends LineOk v where
  lead : ∀ c, v.head? = some c → ¬ Space c

/-- A name has no white space at its beginning or end and no equals sign, and is not a comment. -/
structure NameOk (n : List Nat) : Prop extends ValueOk n where
  trail : ∀ c, n.getLast? = some c → ¬ Space c
  eq : 61 ∉ n
  hash : n.head? ≠ some 35

/-- Lines of comments. -/
inductive CommentOk : List Nat → Prop where
  | nil : CommentOk []
  | cons {l t} (h : LineOk l) (hl : l.head? = some 35) (ht : CommentOk t) : CommentOk (l ++ 10 :: t)

/-- The lines of a file that are not empty. -/
inductive Lines : List Nat → List (List Nat) → Prop where
  | nil : Lines [] []
  | brk {c t ls} (hc : c = 10 ∨ c = 13) (h : Lines t ls) : Lines (c :: t) ls
  | line {w t ls} (hne : w ≠ []) (h10 : 10 ∉ w) (h13 : 13 ∉ w) (ht : ∀ c, t.head? = some c → c = 10 ∨ c = 13) (h : Lines t ls) : Lines (w ++ t) (w :: ls)

/-- No line looks like one of a settings file: the output of `clink set`. -/
def Listing (ls : List (List Nat)) : Prop := ∀ l ∈ ls, l.head? ≠ some 35 ∧ 61 ∉ l

def Blank (l : List Nat) : Prop := ∀ c ∈ l, Space c

/-- A line that gives a value; `sep` is between the name and the value. -/
inductive Assigns (sep : Nat) : List Nat → List Nat → List Nat → Prop where
  | mk {a b c n v} (ha : Blank a) (hb : Blank b) (hc : Blank c) (hsep : sep ∉ n ++ b) (hn : ∀ x, n.head? = some x → ¬ Space x ∧ x ≠ 35)
      (he : n = [] → b = []) (hl : ∀ x, n.getLast? = some x → ¬ Space x) (hv : ∀ x, v.head? = some x → ¬ Space x) :
      Assigns sep (a ++ n ++ b ++ sep :: c ++ v) n v

/-- What the lines of a file say: names, values and comments.  The first argument is the comment before the lines. -/
inductive Says (listing : Prop) : List Nat → List (List Nat) → List (List Nat × List Nat × List Nat) → Prop where
  | nil {c} : Says listing c [] []
  | comment {c a t ls es} (ha : Blank a) (h : Says listing (c ++ 35 :: t ++ [10]) ls es) : Says listing c ((a ++ 35 :: t) :: ls) es
  | assign {c l n v ls es} (hl : Assigns 61 l n v) (h : Says listing [] ls es) : Says listing c (l :: ls) ((n, v, c) :: es)
  | listed {c l n v ls es} (hs : listing) (hl : Assigns 32 l n v) (hne : n ≠ []) (h : Says listing [] ls es) : Says listing c (l :: ls) ((n, v, c) :: es)
  | other {c l ls es} (h61 : 61 ∉ l) (hh : ∀ a t, Blank a → l ≠ a ++ 35 :: t) (hs : listing → ∀ n v, n ≠ [] → ¬ Assigns 32 l n v) (h : Says listing [] ls es) :
      Says listing c (l :: ls) es

/-- Codes of colours that can be written and read again: those of descriptions, and raw codes that are not numbers. -/
inductive ColourOk : List Nat → Prop where
  | described {v code} (h : Color.parse v = some code) (hr : ∀ w, (Tok.tokens Utf.iter8 [32] v).head? = some w → ¬ Color.Spec.Raw w) : ColourOk code
  | other {code ws w} (hc : ∀ c ∈ code, 32 < c ∧ c < 128) (hw : Color.Spec.Words 59 code ws) (hlen : ∀ w ∈ ws, w.length ≤ 9)
      (hm : w ∈ ws) (hd : ∀ n, ¬ Decimal w n) : ColourOk code

/-- Options that can be told apart. -/
structure NamesOk (lower : Nat → Nat) (names : List (List Nat)) : Prop where
  count : names.length < 2147483648
  differ : ∀ (i j : Nat) (a b : List Nat), names[i]? = some a → names[j]? = some b → Same lower a b → i = j
  number : ∀ (i j : Nat) (a : List Nat), names[i]? = some a → Decimal a j → j < names.length → i = j
  values : ∀ a ∈ names, ValueOk a

/-- A value that can be written and read again. -/
inductive ValOk (lower : Nat → Nat) : Ty → Val → Prop where
  | no {d} : ValOk lower (.bool d) (.num 0)
  | yes {d} : ValOk lower (.bool d) (.num 1)
  | int {d n} (h : -2147483648 ≤ n ∧ n < 2147483648) : ValOk lower (.int d) (.num n)
  | str {d v} (h : ValueOk v) : ValOk lower (.str d) (.text v)
  | enum {o d names k} (h : Options o names) (hn : NamesOk lower names) (ho : LineOk o) (hk : k < names.length) : ValOk lower (.enum o d) (.num (k : Int))
  | color {d code} (h : ColourOk code) : ValOk lower (.color d) (.text code)

/-- The words that the setting `clink.autoupdate` had when it was a boolean. -/
def OldWord (v : List Nat) : Prop :=
  ∃ pre w post, v = pre ++ w ++ post ∧ (∀ c ∈ pre, c = 32 ∨ c = 9) ∧ (∀ c ∈ post, c = 32 ∨ c = 9 ∨ c = 13 ∨ c = 10) ∧
    ∃ x ∈ [bs "false", bs "off", bs "no", bs "true", bs "on", bs "yes"], Color.Spec.Like w x

/-- What declares a setting. -/
structure DeclOk (s : Setting) : Prop where
  name : NameOk s.name
  short : s.name.length ≤ 32
  desc : LineOk s.desc
  color : ∀ d, s.ty = .color d → Color.parse d ≠ none
  auto : Color.Spec.Like s.name (bs "clink.autoupdate") → ∃ d, s.ty = .enum (bs "off,check,prompt,auto") d

/-- Names that are the same if case is ignored (for ASCII letters). -/
def SameName (a b : List Nat) : Prop :=
  a.length = b.length ∧ ∀ (i x y : Nat), a[i]? = some x → b[i]? = some y → Color.lower x = Color.lower y

/-- A name for no known setting; names are cut off at 32. -/
def Unknown (known : List Setting) (name : List Nat) : Prop :=
  ∀ s ∈ known, ¬ SameName s.name name ∧ (32 < name.length → ¬ SameName s.name (name.take 32))

/-- A name for a setting. -/
def Names (s : Setting) (name : List Nat) : Prop := SameName s.name name ∨ (32 < name.length ∧ SameName s.name (name.take 32))

/-- The value that is meant in the file: the setting `clink.autoupdate` was a boolean. -/
inductive Means (name : List Nat) : List Nat → List Nat → Prop where
  | other {v} (h : ¬ (Color.Spec.Like name (bs "clink.autoupdate") ∧ OldWord v)) : Means name v v
  | no {v} (hn : Color.Spec.Like name (bs "clink.autoupdate")) {pre w post x} (hv : v = pre ++ w ++ post) (hpre : ∀ c ∈ pre, c = 32 ∨ c = 9)
      (hpost : ∀ c ∈ post, c = 32 ∨ c = 9 ∨ c = 13 ∨ c = 10) (hx : x ∈ [bs "false", bs "off", bs "no"]) (hw : Color.Spec.Like w x) : Means name v (bs "0")
  | yes {v} (hn : Color.Spec.Like name (bs "clink.autoupdate")) {pre w post x} (hv : v = pre ++ w ++ post) (hpre : ∀ c ∈ pre, c = 32 ∨ c = 9)
      (hpost : ∀ c ∈ post, c = 32 ∨ c = 9 ∨ c = 13 ∨ c = 10) (hx : x ∈ [bs "true", bs "on", bs "yes"]) (hw : Color.Spec.Like w x) : Means name v (bs "1")

/-- A setting of the file that is not known. -/
structure ExtraOk (known : List Setting) (l : Loaded) : Prop where
  unknown : Unknown known l.name
  name : NameOk l.name
  value : ValueOk l.value
  comment : CommentOk l.comment
  auto : Color.Spec.Like l.name (bs "clink.autoupdate") → ¬ OldWord l.value

/-- Options can be told apart. -/
def EnumOk (lower : Nat → Nat) (ty : Ty) : Prop :=
  ∀ o d, ty = .enum o d → ∃ names, Options o names ∧ NamesOk lower names ∧ LineOk o

/-- Custom defaults are lines of text. -/
def CustomOk (custom : Custom) : Prop := ∀ n v, custom n = some v → ValueOk v

/-- Settings that are declared under different names. -/
structure KnownOk (lower : Nat → Nat) (known : List Setting) : Prop where
  decl : ∀ s ∈ known, DeclOk s
  enum : ∀ s ∈ known, EnumOk lower s.ty
  differ : known.Pairwise fun s t => ¬ SameName s.name t.name

/-- The same settings, with any values. -/
def SameDecl (a b : List Setting) : Prop := a.map (fun s => (s.name, s.desc, s.ty)) = b.map fun s => (s.name, s.desc, s.ty)

/-- Colours that are not a default can be written and read again. -/
def ColoursOk (known : List Setting) : Prop := ∀ s ∈ known, ∀ d, s.ty = .color d → s.save = true → ∃ code, s.val = .text code ∧ ColourOk code

/-- The order of names by their bytes. -/
inductive Before : List Nat → List Nat → Prop where
  | nil {b t} : Before [] (b :: t)
  | lt {a b s t} (h : a < b) : Before (a :: s) (b :: t)
  | eq {a s t} (h : Before s t) : Before (a :: s) (a :: t)

/-- A state whose settings can all be written and read again. -/
structure StateOk (env : Env) (custom : Custom) (st : State) : Prop where
  decl : ∀ s ∈ st.known, DeclOk s
  differ : st.known.Pairwise fun s t => ¬ SameName s.name t.name
  saved : ∀ s ∈ st.known, s.save = true → ValOk env.lower s.ty s.val
  unsaved : ∀ s ∈ st.known, s.save = false → s.reset env custom = s
  extra : ∀ l ∈ st.loaded, (∃ s ∈ st.known, s.name = l.name) ∨ (l.saved = false ∧ ExtraOk st.known l)
  sorted : st.loaded.Pairwise fun a b => Before a.name b.name

/-- Loaded settings that are not known. -/
def strangers (st : State) : List Loaded := st.loaded.filter fun l => !st.known.any (·.name == l.name)

end Clink.Settings.Spec
