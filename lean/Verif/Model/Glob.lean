import Verif.Model.Abbrev

/-!
Model of the enumeration of files: the class `globber` and the Lua functions that are made of it.
Source: clink/core/src/globber.cpp, clink/lua/src/os_api.cpp, clink/app/src/host/host.cpp.

`Os.find p` is everything that `FindFirstFileW(p)` and then `FindNextFileW` give, and is empty if there is nothing; the names
are already converted to UTF-8.  `Os.env` is `os::get_env`.  Times are `FILETIME`s as one number.  `none` is a read outside of a
string, or a loop that does not end.  Not modelled: failures of the conversions, and the Lua stack.
-/

namespace Clink.Glob

/-- `WIN32_FIND_DATAW`. -/
structure Entry where
  name : List Nat
  attr : Nat
  write : Nat := 0
  access : Nat := 0
  create : Nat := 0
  sizeLow : Nat := 0
  sizeHigh : Nat := 0
  tag : Nat := 0
  deriving DecidableEq, Repr

structure Os where
  find : List Nat → List Entry
  env : List Nat → Option (List Nat)

/-- `FindFirstFileW` with success, `FindNextFileW`, `FindClose`. -/
inductive Call | first | next | close
  deriving DecidableEq, Repr

/-- The members of `globber`, core/include/core/globber.h:38-49.  `cur` is `m_data` with what the handle has still to give, or
`none` if `m_handle` is null.  `calls` is a record of the calls of the system. -/
structure G where
  cur : Option (Entry × List Entry) := none
  root : List Nat := []
  files : Bool := true
  dirs : Bool := true
  suffix : Bool := true
  hidden : Bool := false
  system : Bool := false
  dots : Bool := false
  older : Option Nat := none
  calls : List Call := []
  deriving DecidableEq, Repr

/-- `FILE_ATTRIBUTE_READONLY`, `HIDDEN`, `SYSTEM`, `DIRECTORY`, `REPARSE_POINT` and `OFFLINE`. -/
def readonlyBit : Nat := 0
def hiddenBit : Nat := 1
def systemBit : Nat := 2
def dirBit : Nat := 4
def reparseBit : Nat := 10
def offlineBit : Nat := 12

/-- `globber::close`, core/src/globber.cpp:173-180. -/
def close (g : G) : G :=
  match g.cur with
  | none => g
  | some _ => { g with cur := none, calls := g.calls ++ [.close] }

/-- `globber::next_file`, core/src/globber.cpp:183-187. -/
def nextFile (g : G) : G :=
  match g.cur with
  | none => g
  | some (_, []) => close { g with calls := g.calls ++ [.next] }
  | some (_, x :: r) => { g with cur := some (x, r), calls := g.calls ++ [.next] }

/-- The test for `.` and `..`, core/src/globber.cpp:52-62. -/
def isDots (name : List Nat) : Bool :=
  match name with
  | 46 :: r =>
    let r := if r.head? = some 46 then r.tail else r
    let r := if r.head? = some 42 then r.tail else r
    r == []
  | _ => false

/-- The current directory of a drive, core/src/globber.cpp:36-46. -/
def drivePattern (os : Os) (p : List Nat) : List Nat :=
  match p with
  | c :: 58 :: r =>
    if r.head? = some 92 ∨ r.head? = some 47 then p
    else match os.env [61, c, 58] with
      | some v => v ++ [92] ++ r
      | none => p
  | _ => p

/-- The constructor, core/src/globber.cpp:13-72. -/
def make (alpha : Nat → Bool) (os : Os) (pattern : List Nat) : Option G := do
  let p := Abbrev.stripQuotes pattern
  if ← Abbrev.isIncompleteUnc (Path.cstr p) then return {}
  let p := drivePattern os p
  let name ← Path.getName alpha p
  let dir ← Path.getDirectory alpha p
  let g : G := { root := Path.normaliseSeparators 92 dir, dots := isDots name }
  match os.find p with
  | [] => return g
  | x :: r => return { g with cur := some (x, r), calls := [.first] }

/-- `globber::older_than`, core/src/globber.cpp:81-102.  `now` is the time, or `none` if `SystemTimeToFileTime` fails. -/
def olderThan (now : Option Nat) (seconds : Int) (g : G) : Bool × G :=
  match now with
  | none => (false, close g)
  | some t =>
    let delta := (seconds % 18446744073709551616).toNat * 10000000 % 18446744073709551616
    (true, { g with older := some (if t ≤ delta then 0 else t - delta) })

/-- Whether an entry is left out, core/src/globber.cpp:112-124. -/
def again (g : G) (e : Entry) : Bool :=
  ((e.name == [46] || e.name == [46, 46]) && !g.dots) ||
  (e.attr.testBit systemBit && !g.system) ||
  (e.attr.testBit hiddenBit && !g.hidden) ||
  (e.attr.testBit dirBit && !g.dirs) ||
  (!e.attr.testBit dirBit && !g.files) ||
  (match g.older with | some t => !decide (e.write < t) | none => false)

/-- The loop at core/src/globber.cpp:107-130. -/
def skip : Nat → G → Option G
  | 0, _ => none
  | n + 1, g =>
    match g.cur with
    | none => some g
    | some (e, _) => if again g e then skip n (nextFile g) else some g

/-- How many entries there still are. -/
def left (g : G) : Nat :=
  match g.cur with
  | none => 0
  | some (_, r) => r.length + 1

/-- The text of an entry, core/src/globber.cpp:132-141. -/
def textOf (alpha : Nat → Bool) (g : G) (rooted : Bool) (e : Entry) : Option (List Nat) := do
  let out ← Path.append alpha (if rooted then g.root else []) e.name
  return out ++ (if e.attr.testBit dirBit && g.suffix then [92] else [])

/-- `globber::next`, core/src/globber.cpp:105-170: the text and the entry, or `none` for false. -/
def next (alpha : Nat → Bool) (rooted : Bool) (g : G) : Option (Option (List Nat × Entry) × G) := do
  let g ← skip (left g + 1) g
  match g.cur with
  | none => return (none, g)
  | some (e, _) =>
    let out ← textOf alpha g rooted e
    return (some (out, e), nextFile g)

/-- `st_mode` has `_S_IFLNK`, core/src/globber.cpp:146-151. -/
def isLink (e : Entry) : Bool := e.attr.testBit reparseBit && !e.attr.testBit offlineBit && e.tag == 0xA000000C

/-- `extrainfo::size`, core/src/globber.cpp:158-161. -/
def size (e : Entry) : Nat := e.sizeHigh * 4294967296 + e.sizeLow

/-- `add_type_tag`, lua/src/os_api.cpp:755-760. -/
def addTag (out tag : List Nat) : List Nat := (if out = [] then [] else out ++ [44]) ++ tag

def tag (s : String) : List Nat := s.toList.map Char.toNat

/-- The type of a result, lua/src/os_api.cpp:783-805.  `stat` is whether `_wstat64` succeeds. -/
def typeOf (alpha : Nat → Bool) (stat : List Nat → Bool) (parent : List Nat) (x : List Nat × Entry) : Option (List Nat) := do
  let t := addTag [] (if x.2.attr.testBit dirBit then tag "dir" else tag "file")
  let t ← (do
    if isLink x.2 then
      let full ← Path.append alpha parent x.1
      let t := addTag t (tag "link")
      return if stat full then t else addTag t (tag "orphaned")
    else return t)
  let t := if x.2.attr.testBit hiddenBit then addTag t (tag "hidden") else t
  let t := if x.2.attr.testBit systemBit then addTag t (tag "system") else t
  let t := if x.2.attr.testBit readonlyBit then addTag t (tag "readonly") else t
  return t

/-- The directory that the type of a link is looked up in, lua/src/os_api.cpp:143-148 and 899-900. -/
def parentOf (alpha : Nat → Bool) (pattern : List Nat) : Option (List Nat) := (Path.toParent alpha pattern).map (·.1)

/-- The loop of `glob_impl`, lua/src/os_api.cpp:902-918, from the index `i`.  `sig i` is `clink_is_signaled()` at `i`. -/
def collect (alpha : Nat → Bool) (sig : Nat → Bool) : Nat → Nat → G → Option (List (List Nat × Entry))
  | 0, _, _ => none
  | n + 1, i, g => do
    let (r, g) ← next alpha false g
    match r with
    | none => return []
    | some x => if (i + 1) % 4 = 0 ∧ sig (i + 1) then return [x] else return x :: (← collect alpha sig n (i + 1) g)

/-- The loop of `globber_lua::next`, lua/src/os_api.cpp:168-175, with at most `n` further files.  `late` says for the next file
on whether 20 ms have passed. -/
def chunkLoop (alpha : Nat → Bool) (late : Nat → Bool) : Nat → Nat → G → Option (List (List Nat × Entry) × Bool × G)
  | 0, _, g => some ([], true, g)
  | n + 1, c, g => do
    let (r, g) ← next alpha false g
    match r with
    | none => return ([], false, g)
    | some x =>
      if late c then return ([x], true, g)
      else
        let (l, b, g) ← chunkLoop alpha late n (c + 1) g
        return (x :: l, b, g)

/-- `globber_lua::next`, lua/src/os_api.cpp:159-179. -/
def chunk (alpha : Nat → Bool) (late : Nat → Bool) (g : G) : Option (List (List Nat × Entry) × Bool × G) := chunkLoop alpha late 250 0 g

/-- The loop of `os.globfiles` in a coroutine, lua/scripts/core.lua:208-216, when the coroutine is not canceled. -/
def gather (alpha : Nat → Bool) (late : Nat → Nat → Bool) : Nat → G → Option (List (List Nat × Entry))
  | 0, _ => none
  | n + 1, g => do
    let (l, b, g) ← chunk alpha (late n) g
    if b then return l ++ (← gather alpha late n g) else return l

/-- `host::purge_old_files`, app/src/host/host.cpp:1475-1487: the files that `_unlink` is called for. -/
def purgeLoop (alpha : Nat → Bool) : Nat → G → Option (List (List Nat × Entry))
  | 0, _ => none
  | n + 1, g => do
    let (r, g) ← next alpha true g
    match r with
    | none => return []
    | some x => return x :: (← purgeLoop alpha n g)

def purge (alpha : Nat → Bool) (now : Option Nat) (g : G) : Option (List (List Nat × Entry)) :=
  let g := (olderThan now 1800 g).2
  purgeLoop alpha (left g + 1) g

/-- What a user of the class can do with it. -/
inductive Op | next (rooted : Bool) | close | older (now : Option Nat) (seconds : Int)

def op (alpha : Nat → Bool) (g : G) : Op → Option G
  | .next rooted => (next alpha rooted g).map (·.2)
  | .close => some (close g)
  | .older now s => some (olderThan now s g).2

def ops (alpha : Nat → Bool) : G → List Op → Option G
  | g, [] => some g
  | g, o :: l => (op alpha g o).bind fun g => ops alpha g l

end Clink.Glob
