import Verif.Model.Path
import Verif.Model.Color

/-! Model of the AutoRun value of cmd.exe (clink/app/src/loader/autorun.cpp).

Texts are bytes in UTF-8 without the terminator; that values are UTF-16 in the registry is not modelled.  `isspace` is that of the "C"
locale.  Opening the registry keys is assumed to succeed, and there is one key (the 32-bit key is changed in the same way). -/

namespace Clink.Autorun

open Color (bs)

/-- `needles`, app/src/loader/autorun.cpp:240-251. -/
def needles : List (List Nat) :=
  [bs "clink inject", bs "clink\" inject", bs "clink_x64.exe inject", bs "clink_x86.exe inject", bs "clink_arm64.exe inject", bs "clink_x64.exe\" inject",
   bs "clink_x86.exe\" inject", bs "clink_arm64.exe\" inject", bs "clink.bat inject", bs "clink.bat\" inject"]

/-- `strstr`: the place of the first occurrence. -/
def strstr (needle : List Nat) : List Nat → Option Nat
  | [] => if needle = [] then some 0 else none
  | c :: l => if needle.isPrefixOf (c :: l) then some 0 else (strstr needle l).map (· + 1)

/-- The first needle that is found, app/src/loader/autorun.cpp:254-269. -/
def findTag (value : List Nat) : List (List Nat) → Option Nat
  | [] => none
  | n :: ns => match strstr n value with
    | some k => some k
    | none => findTag value ns

/-- The right end of the entry, app/src/loader/autorun.cpp:271-276. -/
def rightEnd (value : List Nat) (tag : Nat) : Nat := tag + ((value.drop tag).takeWhile (· != 38)).length

/-- The beginning of the directory, app/src/loader/autorun.cpp:282-285 (`quoted` is true: all needles contain a space). -/
def dirStart (value : List Nat) : Nat → Nat
  | 0 => 0
  | c + 1 => if value[c]? = some 34 then c + 1 else dirStart value c

/-- The left end of the entry, app/src/loader/autorun.cpp:299-318. -/
def leftEnd (value : List Nat) (quoted : Bool) : Nat → Nat
  | 0 => 0
  | c + 1 =>
    if value[c + 1]? = some (if quoted then 34 else 38) then
      if quoted then leftEnd value false c
      else if value[c]? = some 38 then c else c + 1
    else leftEnd value quoted c

/-- `find_clink_entry`, app/src/loader/autorun.cpp:233-321.  `mine` tells whether a directory is the one of this program; it is given
only when all users are enumerated. -/
def findEntry (mine : Option (List Nat → Bool)) (value : List Nat) : Option (Nat × Nat) :=
  match findTag value needles with
  | none => none
  | some tag =>
    let result := (leftEnd value true tag, rightEnd value tag)
    match mine with
    | none => some result
    | some m => if m ((value.take tag).drop (dirStart value tag)) then some result else none

/-- The comparison of directories, app/src/loader/autorun.cpp:287-296.  `lower` is `str_transform`. -/
def sameDir (alpha : Nat → Bool) (lower : List Nat → List Nat) (clinkPath dir : List Nat) : Bool :=
  let norm := fun s => Path.maybeStripLastSeparator alpha (Path.normaliseSeparators 92 (lower s))
  match norm dir, norm clinkPath with
  | some a, some b => a == b
  | _, _ => false

def isSpace (c : Nat) : Bool := (9 ≤ c && c ≤ 13) || c == 32

/-- `get_cmd_start`, app/src/loader/autorun.cpp:324-332. -/
def cmdStart (cmd : List Nat) : List Nat := cmd.dropWhile fun c => isSpace c || c == 38

/-- A value in the registry: its type (`REG_SZ` is 1, `REG_EXPAND_SZ` is 2) and its text. -/
structure Value where
  ty : Nat
  text : List Nat
  deriving DecidableEq, Repr

/-- `get_value`, app/src/loader/autorun.cpp:146-187. -/
def getValue (v : Option Value) : Option (List Nat) := v.bind fun v => if v.ty = 1 ∨ v.ty = 2 then some v.text else none

/-- `set_value`, app/src/loader/autorun.cpp:135-143. -/
def setValue (text : List Nat) : Option Value := some ⟨1, text⟩

/-- `uninstall_autorun_from_key`, app/src/loader/autorun.cpp:335-377. -/
def uninstall (mine : Option (List Nat → Bool)) (v : Option Value) : Option Value :=
  match getValue v with
  | none => v
  | some value =>
    match findEntry mine value with
    | none => v
    | some (left, right) =>
      let read := cmdStart (value.take left ++ value.drop right)
      if read = [] then none else setValue read

/-- The entry, app/src/loader/autorun.cpp:452-455. -/
def entry (clinkPath args : List Nat) : List Nat :=
  bs "\"" ++ clinkPath ++ bs "\\clink.bat\" inject --autorun" ++ if args = [] then [] else 32 :: args

/-- `install_autorun`, app/src/loader/autorun.cpp:422-467.  The buffer has room for 2047 bytes more than there are in the old value; what
is longer is cut off. -/
def install (clinkPath args : List Nat) (v : Option Value) : Option Value :=
  let v := uninstall none v
  let old := (getValue v).getD []
  let new := (if old = [] then [] else old ++ [38]) ++ entry clinkPath args
  setValue (cmdStart (new.take (old.length + 2047)))

/-- `set_autorun_value`, app/src/loader/autorun.cpp:521-538. -/
def setAutorun (value : List Nat) : Option Value := if value = [] then none else setValue value

end Clink.Autorun
