import Verif.Model.Tokeniser
import Verif.Model.StrCompare

/-! Model of `clink installscripts` and `clink uninstallscripts` (clink/app/src/loader/installscripts.cpp) and of the value in
the registry that they read and write (clink/app/src/utils/app_context.cpp:60-98).

The registry is the string of UTF-16 units of the value `InstalledScripts`, if it exists; reading an existing value succeeds, and
`writable` says whether writing does.  Parsing the options (`getopt_long`) is not modelled: a command is what the options ask for
and the arguments after them.  `CharLowerW` is the parameter `lower`. -/

namespace Clink.Scripts

/-- What is printed by `change_value`, app/src/loader/installscripts.cpp:25, 40, 64, 80, 95, 99. -/
inductive Msg
  | noPath
  | semicolon
  | already (value : List Nat)
  | notInstalled (value : List Nat)
  | registry
  | done (install : Bool) (value : List Nat)
deriving Repr, DecidableEq

/-- `get_installed_scripts`, app/src/utils/app_context.cpp:60-78. -/
def get (reg : Option (List Nat)) : List Nat :=
  match reg with
  | none => []
  | some r => (Utf.toUtf8 none r).out

/-- `set_installed_scripts`, app/src/utils/app_context.cpp:81-98: whether it succeeds and the registry then. -/
def set (writable : Bool) (reg : Option (List Nat)) (text : List Nat) : Bool × Option (List Nat) :=
  if writable then (true, some (Utf.toUtf16 none text).out) else (false, reg)

/-- Joining the arguments, app/src/loader/installscripts.cpp:29-36. -/
def joinArgs : List Nat → List (List Nat) → List Nat
  | value, [] => value
  | value, a :: as => joinArgs ((if value ≠ [] then value ++ [32] else value) ++ a) as

/-- Appending to `new_list`, app/src/loader/installscripts.cpp:73-75 and 87-89. -/
def append (list token : List Nat) : List Nat := (if list ≠ [] then list ++ [59] else list) ++ token

/-- `str_compare(tmpt, tmpv) == -1`, app/src/loader/installscripts.cpp:48 and 56-58. -/
def equal (lower : Nat → Nat) (token value : List Nat) : Bool :=
  (StrCompare.strCompare lower Utf.iter8 ⟨1, false, false⟩ false token value).1 = -1

/-- The loop over the tokens, app/src/loader/installscripts.cpp:54-76: none when it returns early, otherwise `new_list` and
`uninstalled`. -/
def scan (lower : Nat → Nat) (install : Bool) (value : List Nat) : List Nat × Bool → List (List Nat) → Option (List Nat × Bool)
  | s, [] => some s
  | s, t :: ts =>
    if equal lower t value then
      if install then none else scan lower install value (s.1, true) ts
    else scan lower install value (append s.1 t, s.2) ts

/-- Setting the new value, app/src/loader/installscripts.cpp:92-100. -/
def store (writable : Bool) (reg : Option (List Nat)) (install : Bool) (value list : List Nat) : Bool × Msg × Option (List Nat) :=
  if (set writable reg list).1 then (true, .done install value, (set writable reg list).2)
  else (false, .registry, (set writable reg list).2)

/-- `change_value`, app/src/loader/installscripts.cpp:21-101: the result, what is printed, and the registry then. -/
def changeValue (lower : Nat → Nat) (writable : Bool) (reg : Option (List Nat)) (install : Bool) (argv : List (List Nat)) :
    Bool × Msg × Option (List Nat) :=
  if argv = [] then (false, .noPath, reg)
  else if 59 ∈ joinArgs [] argv then (false, .semicolon, reg)
  else
    match scan lower install (joinArgs [] argv) ([], false) (Tok.tokens Utf.iter8 [59] (get reg)) with
    | none => (false, .already (joinArgs [] argv), reg)
    | some s =>
      if !install && !s.2 then (false, .notInstalled (joinArgs [] argv), reg)
      else store writable reg install (joinArgs [] argv) (if install then append s.1 (joinArgs [] argv) else s.1)

/-- `list_installed_scripts`, app/src/loader/installscripts.cpp:139-148: the lines printed. -/
def list (reg : Option (List Nat)) : List (List Nat) := Tok.tokens Utf.iter8 [59] (get reg)

/-- `uninstallscripts --all`, app/src/loader/installscripts.cpp:213-235: the exit code, the paths printed as uninstalled, and
the registry then. -/
def uninstallAll (writable : Bool) (reg : Option (List Nat)) (args : Nat) : Nat × List (List Nat) × Option (List Nat) :=
  if args > 0 then (1, [], reg)
  else if (set writable reg []).1 then (0, list (set writable reg []).2, (set writable reg []).2)
  else (1, [], (set writable reg []).2)

end Clink.Scripts
