import Verif.Model.Color
import Verif.Model.StrCompare

/-! Model of settings and the settings file (clink/core/src/settings.cpp, clink/core/include/core/settings.h).

Strings are lists of bytes without the terminator.  The two functions of the system are parameters: `CharLowerW` and `atoi`.
`isspace` and `stricmp` are those of the "C" locale.

Not modelled: the migration of settings from the old settings file (settings.cpp:404-516, 555-568 and 573-593), ini files (settings.cpp:203-300),
reading a file of custom defaults (the map that it fills is a parameter), long descriptions and sources of settings. -/

namespace Clink.Settings

open Color (bs)

/-- Functions of the system. -/
structure Env where
  lower : Nat → Nat
  atoi : List Nat → Int

/-- `isspace`. -/
def isSpace (c : Nat) : Bool := (9 ≤ c && c ≤ 13) || c == 32

/-- `stricmp(a, b) == 0`. -/
def same (a b : List Nat) : Bool := a.map Color.lower == b.map Color.lower

/-- `str_impl::trim`, core/include/core/str.h:282-313. -/
def trim (s : List Nat) : List Nat :=
  ((s.reverse.dropWhile fun c => c == 32 || c == 9 || c == 13 || c == 10).reverse).dropWhile fun c => c == 32 || c == 9

def isDigit (c : Nat) : Bool := 48 ≤ c && c ≤ 57

/-! ### Types of settings -/

/-- The type and the default. -/
inductive Ty where
  | bool (default : Bool)
  | int (default : Int)
  | str (default : List Nat)
  | enum (options : List Nat) (default : Int)
  | color (default : List Nat)
  deriving DecidableEq, Repr

/-- `store<T>`; `bool` is 0 or 1. -/
inductive Val where
  | num (n : Int)
  | text (s : List Nat)
  deriving DecidableEq, Repr

/-- `setting_impl<bool>::parse`, core/src/settings.cpp:1341-1370. -/
def parseBool (env : Env) (value : List Nat) : Option Val :=
  let value := trim value
  if same value (bs "true") then some (.num 1)
  else if same value (bs "false") then some (.num 0)
  else if same value (bs "on") then some (.num 1)
  else if same value (bs "off") then some (.num 0)
  else if same value (bs "yes") then some (.num 1)
  else if same value (bs "no") then some (.num 0)
  else if isDigit (value.headD 0) then some (.num (if env.atoi value = 0 then 0 else 1))
  else none

/-- `setting_impl<int32>::parse`, core/src/settings.cpp:1373-1380. -/
def parseInt (env : Env) (value : List Nat) : Option Val :=
  if isDigit (value.headD 0) = false ∧ value.headD 0 ≠ 45 then none else some (.num (env.atoi value))

/-- `setting_enum::next_option`, core/src/settings.cpp:1562-1569. -/
def nextOption : List Nat → List Nat
  | [] => []
  | c :: l => if c = 44 then l else nextOption l

theorem nextOption_lt {l : List Nat} (h : l ≠ []) : (nextOption l).length < l.length := by
  induction l with
  | nil => exact absurd rfl h
  | cons c l ih =>
    rw [nextOption]
    split
    · simp
    · cases l with
      | nil => simp [nextOption]
      | cons d l =>
        have := ih (by simp)
        simp only [List.length_cons] at *
        omega

/-- The option that begins here, core/src/settings.cpp:1484-1488 and 1550-1557: a comma at the end of all options belongs to the
last one. -/
def optionHere (option : List Nat) : List Nat :=
  let next := nextOption option
  option.take (option.length - next.length - if next = [] then 0 else 1)

/-- `by_int` in `setting_enum::parse`, core/src/settings.cpp:1469-1479. -/
def byInt (env : Env) (value : List Nat) : Int :=
  if value ≠ [] ∧ value.all isDigit = true then env.atoi value else -1

/-- `str_compare` of an option and the value is negative, core/src/settings.cpp:1493-1496. -/
def matchOption (env : Env) (option value : List Nat) : Bool :=
  decide ((StrCompare.strCompare env.lower Utf.iter8 ⟨1, false, false⟩ false option value).1 < 0)

/-- The loop in `setting_enum::parse`, core/src/settings.cpp:1481-1510. -/
def enumLoop (env : Env) (value : List Nat) (i : Nat) (byInt : Int) (option : List Nat) : Option Val :=
  if h : option = [] then none
  else if byInt = 0 ∨ matchOption env (optionHere option) value = true then some (.num i)
  else
    have := nextOption_lt h
    enumLoop env value (i + 1) (byInt - 1) (nextOption option)
termination_by option.length

/-- `setting_enum::parse`, core/src/settings.cpp:1467-1511. -/
def parseEnum (env : Env) (options value : List Nat) : Option Val := enumLoop env value 0 (byInt env value) options

/-- `setting_enum::get_option_name`, core/src/settings.cpp:1540-1559. -/
def optionName (options : List Nat) (index : Int) : List Nat :=
  if index < 0 then []
  else
    let option := Nat.repeat nextOption index.toNat options
    if option = [] then [] else optionHere option

/-- `parse`: `none` is `false`.  The value is stored only if it is accepted. -/
def parse (env : Env) (ty : Ty) (value : List Nat) : Option Val :=
  match ty with
  | .bool _ => parseBool env value
  | .int _ => parseInt env value
  | .str _ => some (.text value)
  | .enum options _ => parseEnum env options value
  | .color _ => (Color.parse value).map .text

/-- `%d`. -/
def decimal (n : Int) : List Nat := if n < 0 then 45 :: Color.digits n.natAbs else Color.digits n.natAbs

/-- `get`, core/src/settings.cpp:1392-1407 and 1514-1517. -/
def get (ty : Ty) (val : Val) : List Nat :=
  match ty, val with
  | .bool _, .num n => if n ≠ 0 then bs "True" else bs "False"
  | .int _, .num n => decimal n
  | .enum options _, .num n => optionName options n
  | _, .text s => s
  | _, .num n => decimal n

/-- `get_descriptive` (in compatible form), core/include/core/settings.h:103, core/src/settings.cpp:1613-1618; `none` is undefined
behaviour. -/
def descriptive (ty : Ty) (val : Val) : Option (List Nat) :=
  match ty, val with
  | .color _, .text s => Color.format true s
  | _, _ => some (get ty val)

/-- `m_default`. -/
def Ty.default : Ty → Val
  | .bool d => .num (if d then 1 else 0)
  | .int d => .num d
  | .str d => .text d
  | .enum _ d => .num d
  | .color d => .text d

/-- `is_default`, core/include/core/settings.h:203-206, core/src/settings.cpp:1594-1601. -/
def isDefault (env : Env) (ty : Ty) (val : Val) : Bool :=
  match ty with
  | .color d =>
    match parse env (.color d) d with
    | some v => v == val
    | none => val == .text []
  | ty => val == ty.default

/-- A setting; `save` is `m_save`. -/
structure Setting where
  name : List Nat
  desc : List Nat
  ty : Ty
  val : Val
  save : Bool
  deriving DecidableEq, Repr

/-- The map of custom defaults, by name. -/
abbrev Custom := List Nat → Option (List Nat)

/-- The value that `set()` stores, core/include/core/settings.h:185-191, core/src/settings.cpp:1604-1610. -/
def resetVal (env : Env) (custom : Custom) (s : Setting) : Val :=
  match (custom s.name).bind (parse env s.ty) with
  | some v => v
  | none =>
    match s.ty with
    | .color d => (parse env (.color d) d).getD s.val
    | ty => ty.default

/-- `set()`. -/
def Setting.reset (env : Env) (custom : Custom) (s : Setting) : Setting :=
  let val := resetVal env custom s
  { s with val, save := !isDefault env s.ty val }

/-- `set(value)`, core/include/core/settings.h:194-200. -/
def Setting.set (env : Env) (s : Setting) (value : List Nat) : Setting × Bool :=
  match parse env s.ty value with
  | none => (s, false)
  | some v => ({ s with val := v, save := true }, true)

/-! ### The maps -/

/-- `loaded_setting` and its name, core/src/settings.cpp:20-27. -/
structure Loaded where
  name : List Nat
  comment : List Nat
  value : List Nat
  saved : Bool
  deriving DecidableEq, Repr

/-- `g_setting_map` (in its order) and `g_loaded_settings`. -/
structure State where
  known : List Setting
  loaded : List Loaded

/-- `settings::find`, core/src/settings.cpp:338-353: the place of the setting.  Long names are cut off. -/
def findIdx (known : List Setting) (name : List Nat) : Option Nat :=
  match known.findIdx? (fun s => same s.name name) with
  | some i => some i
  | none => if 32 < name.length then known.findIdx? (fun s => same s.name (name.take 32)) else none

/-- The order of `std::string`. -/
def before : List Nat → List Nat → Bool
  | _, [] => false
  | [], _ :: _ => true
  | a :: s, b :: t => a < b || (a == b && before s t)

/-- `std::map::emplace`: an element that is there already is kept. -/
def emplace (e : Loaded) : List Loaded → List Loaded
  | [] => [e]
  | f :: l => if before e.name f.name then e :: f :: l else if e.name = f.name then f :: l else f :: emplace e l

/-- `set_setting`, core/src/settings.cpp:356-383. -/
def setSetting (env : Env) (st : State) (name value : List Nat) (comment : Option (List Nat)) : State × Bool :=
  match findIdx st.known name with
  | none =>
    let comment := match comment with
      | some c => c
      | none => match st.loaded.find? (·.name == name) with
        | some l => l.comment
        | none => []
    ({ st with loaded := emplace ⟨name, comment, value, false⟩ st.loaded }, true)
  | some i =>
    match st.known[i]? with
    | none => (st, false)
    | some s => ({ st with known := st.known.set i (s.set env value).1 }, (s.set env value).2)

/-- `clear_setting`, core/src/settings.cpp:386-401. -/
def clearSetting (env : Env) (custom : Custom) (st : State) (name : List Nat) : State :=
  match findIdx st.known name with
  | none => { st with loaded := st.loaded.filter (·.name != name) }
  | some i =>
    match st.known[i]? with
    | none => st
    | some s => { st with known := st.known.set i (s.reset env custom) }

/-! ### Reading -/

/-- What `load_setting` is called with. -/
structure Entry where
  name : List Nat
  value : List Nat
  comment : List Nat
  deriving DecidableEq, Repr

/-- The test for the output of `clink set`, core/src/settings.cpp:112-127. -/
def maybeClinkSet (lines : List (List Nat)) : Bool := lines.all fun l => l != [] && l.headD 0 != 35 && !l.contains 61

/-- Key and value, core/src/settings.cpp:154-183. -/
def splitLine (maybe : Bool) (d : List Nat) : Option (List Nat × List Nat) :=
  let cut := fun c => some
    (((d.takeWhile (· != c)).reverse.dropWhile isSpace).reverse, ((d.dropWhile (· != c)).drop 1).dropWhile isSpace)
  if d.contains 61 then cut 61
  else if maybe && d.contains 32 then cut 32
  else none

/-- The setting that was a boolean, core/src/settings.cpp:185-194. -/
def autoupdate (name value : List Nat) : List Nat :=
  if same name (bs "clink.autoupdate") then
    let tmp := trim value
    if same tmp (bs "false") || same tmp (bs "off") || same tmp (bs "no") then bs "0"
    else if same tmp (bs "true") || same tmp (bs "on") || same tmp (bs "yes") then bs "1"
    else value
  else value

/-- The loop in `load_internal`, core/src/settings.cpp:129-197. -/
def loadLines (maybe : Bool) (wasComment : Bool) (comment : List Nat) : List (List Nat) → List Entry
  | [] => []
  | line :: lines =>
    let comment := if wasComment then comment else []
    let d := line.dropWhile isSpace
    if d.head? = some 35 then loadLines maybe true (comment ++ d ++ [10]) lines
    else
      match splitLine maybe d with
      | none => loadLines maybe false comment lines
      | some (name, value) => ⟨name, autoupdate name value, comment⟩ :: loadLines maybe false comment lines

/-- `load_internal`, core/src/settings.cpp:89-200: the calls of `load_setting`. -/
def loadInternal (text : List Nat) : List Entry :=
  let lines := Tok.tokens Utf.iter8 [10, 13] text
  loadLines (maybeClinkSet lines) false [] lines

/-- `load`, core/src/settings.cpp:522-596, without migration; `none` is a file that cannot be opened. -/
def load (env : Env) (custom : Custom) (st : State) (file : Option (List Nat)) : State :=
  let st : State := { known := st.known.map (·.reset env custom), loaded := [] }
  match file with
  | none => st
  | some text => (loadInternal text).foldl (fun st e => (setSetting env st e.name e.value (some e.comment)).1) st

/-! ### Writing -/

/-- The name of a type, core/src/settings.cpp:633-642. -/
def typeName : Ty → List Nat
  | .bool _ => bs "boolean"
  | .int _ => bs "integer"
  | .str _ => bs "string"
  | .enum _ _ => bs "enum"
  | .color _ => bs "color"

/-- One setting, core/src/settings.cpp:626-656. -/
def saveSetting (s : Setting) : Option (List Nat) :=
  if s.save then
    (descriptive s.ty s.val).map fun value =>
      bs "# name: " ++ s.desc ++ bs "\n# type: " ++ typeName s.ty ++ bs "\n" ++
        (match s.ty with
         | .enum options _ => bs "# options: " ++ options ++ bs "\n"
         | _ => []) ++
        s.name ++ bs " = " ++ value ++ bs "\n\n"
  else some []

/-- All settings, core/src/settings.cpp:618-657. -/
def saveKnown : List Setting → Option (List Nat)
  | [] => some []
  | s :: l => (saveSetting s).bind fun t => (saveKnown l).map fun ts => t ++ ts

/-- The flags, core/src/settings.cpp:622-624.  The loop in 615-616 changes copies. -/
def markSaved (known : List Setting) (loaded : List Loaded) : List Loaded :=
  loaded.map fun l => if known.any (·.name == l.name) then { l with saved := true } else l

/-- One setting that is not known, core/src/settings.cpp:671. -/
def saveLoaded (l : Loaded) : List Nat := l.comment ++ l.name ++ bs " = " ++ l.value ++ bs "\n\n"

/-- Settings that are not known, core/src/settings.cpp:659-672. -/
def saveExtra (loaded : List Loaded) : List Nat :=
  let l := loaded.filter (!·.saved)
  if l = [] then [] else bs "\n\n" ++ l.flatMap saveLoaded

/-- Files are written in text mode. -/
def textMode (text : List Nat) : List Nat := text.flatMap fun c => if c = 10 then [13, 10] else [c]

/-- `save_internal`, core/src/settings.cpp:599-676: the file and the new state; `none` is undefined behaviour.  (That the file cannot be
opened is not modelled.) -/
def save (st : State) : Option (List Nat × State) :=
  (saveKnown st.known).map fun t =>
    let loaded := markSaved st.known st.loaded
    (textMode (t ++ saveExtra loaded), { st with loaded })

/-! ### Registering -/

/-- The order of the map of known settings: `stricmp(a, b) < 0`. -/
def beforeCaseless (a b : List Nat) : Bool := before (a.map Color.lower) (b.map Color.lower)

/-- `get_map()[name] = this` in `setting::setting`, core/src/settings.cpp:1271. -/
def insertKnown (s : Setting) : List Setting → List Setting
  | [] => [s]
  | t :: l => if beforeCaseless s.name t.name then s :: t :: l else if same s.name t.name then s :: l else t :: insertKnown s l

/-- A script adds a setting: the constructor and `deferred_load`, core/src/settings.cpp:1257-1272, core/include/core/settings.h:173-191
and 227-232. -/
def register (env : Env) (custom : Custom) (st : State) (name desc : List Nat) (ty : Ty) : State :=
  let s : Setting := ({ name := name.take 32, desc := desc.take 48, ty, val := ty.default, save := true } : Setting).reset env custom
  let s := match st.loaded.find? (·.name == s.name) with
    | some l => (s.set env l.value).1
    | none => s
  { st with known := insertKnown s st.known }

/-- `setting::~setting`, core/src/settings.cpp:1275-1281. -/
def unregister (st : State) (name : List Nat) : State := { st with known := st.known.filter fun s => !same s.name name }

/-! ### Changing one setting in the file -/

/-- `~rollback_settings_values`, core/src/settings.cpp:748-757: values are given back as text. -/
def rollback (env : Env) (old : List Setting) (s : Setting) : Setting :=
  match old.find? (·.name == s.name) with
  | some o => (s.set env (get o.ty o.val)).1
  | none => s

/-- `parse` for a null pointer: `none` is undefined behaviour.  (A copy of a null pointer is empty, core/include/core/str.h:347-358.) -/
def parseNull (env : Env) (ty : Ty) : Option (Option Val) :=
  match ty with
  | .bool _ => some (parseBool env [])
  | .int _ => none
  | .str _ => some (some (.text []))
  | .enum _ _ => none
  | .color _ => some (some (.text []))

/-- `set_setting` for a null pointer; a `std::string` cannot be made of it. -/
def setNull (env : Env) (st : State) (name : List Nat) : Option (State × Bool) :=
  match findIdx st.known name with
  | none => none
  | some i =>
    match st.known[i]? with
    | none => none
    | some s => (parseNull env s.ty).map fun
      | none => (st, false)
      | some v => ({ st with known := st.known.set i { s with val := v, save := true } }, true)

/-- `sandboxed_set_setting`, core/src/settings.cpp:763-779: the result, the file and the state; a null pointer is `none`. -/
def sandboxedSet (env : Env) (custom : Custom) (st : State) (file : Option (List Nat)) (name : List Nat) (value : Option (List Nat)) :
    Option (Bool × Option (List Nat) × State) :=
  let st1 := load env custom st file
  (match value with
   | some v => some (setSetting env st1 name v none)
   | none => setNull env st1 name).bind fun (r : State × Bool) =>
    if r.2 then
      (save r.1).map fun (w : List Nat × State) => (true, some w.1, { st with known := w.2.known.map (rollback env st.known) })
    else some (false, file, { st with known := r.1.known.map (rollback env st.known) })

/-- `settings.clear` in scripts, lua/src/settings_api.cpp:178-190: `set()` and `sandboxed_set_setting(key, nullptr)`. -/
def luaClear (env : Env) (custom : Custom) (st : State) (file : Option (List Nat)) (name : List Nat) :
    Option (Bool × Option (List Nat) × State) :=
  match findIdx st.known name with
  | none => some (false, file, st)
  | some _ => sandboxedSet env custom (clearSetting env custom st name) file name none

/-- `settings.set` in scripts, lua/src/settings_api.cpp:132-153. -/
def luaSet (env : Env) (custom : Custom) (st : State) (file : Option (List Nat)) (name value : List Nat) :
    Option (Bool × Option (List Nat) × State) :=
  match findIdx st.known name with
  | none => some (false, file, st)
  | some _ =>
    let r := setSetting env st name value none
    if r.2 then sandboxedSet env custom r.1 file name (some value) else some (false, file, r.1)

/-- One element of an overlay, core/src/settings.cpp:801-809. -/
def overlayOne (env : Env) (custom : Custom) (st : State) (name : List Nat) (value : Option (List Nat)) : State :=
  match value with
  | some v => (setSetting env st name v none).1
  | none => clearSetting env custom st name

/-- `sandboxed_overlay`, core/src/settings.cpp:782-817, for an overlay that is not empty. -/
def sandboxedOverlay (env : Env) (custom : Custom) (st : State) (file : Option (List Nat)) (overlay : List (List Nat × Option (List Nat))) :
    Option (Option (List Nat) × State) :=
  let st1 := overlay.foldl (fun st o => overlayOne env custom st o.1 o.2) (load env custom st file)
  (save st1).map fun w => (some w.1, { st with known := w.2.known.map (rollback env st.known) })

end Clink.Settings
