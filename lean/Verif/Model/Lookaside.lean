/-! Model of the packed format of matches and of the tables to unpack it (clink/lib/src/matches_lookaside.cpp).

A C string is the list of its bytes without the terminator; a null pointer is `none`.  A block of memory is the list of its
bytes; a read or write outside of it is undefined behaviour, `none`.  Blocks are known by their address, and 0 is the null
pointer.  `debug` tells whether the program was compiled with `DEBUG`; its assertions are not part of the model.  Allocation
does not fail. -/

namespace Clink.Lookaside

/-- `*(buffer++) = c`. -/
def put (buf : List Nat) (p c : Nat) : Option (List Nat × Nat) := if p < buf.length then some (buf.set p c, p + 1) else none

/-- `append_string_into_buffer`, lib/src/matches_lookaside.cpp:24-30. -/
def appendLoop (tabs : Bool) : List Nat → List Nat → Nat → Option (List Nat × Nat)
  | [], buf, p => put buf p 0
  | c :: s, buf, p =>
    if c = 0 then put buf p 0
    else
      let c := if c = 13 ∨ c = 10 ∨ (c = 9 ∧ tabs = false) then 32 else c
      (put buf p c).bind fun r => appendLoop tabs s r.1 r.2

/-- `append_string_into_buffer`, lib/src/matches_lookaside.cpp:20-32. -/
def appendString (tabs : Bool) (s : Option (List Nat)) (buf : List Nat) (p : Nat) : Option (List Nat × Nat) := appendLoop tabs (s.getD []) buf p

/-- `strlen`. -/
def strlen (s : List Nat) : Nat := (s.takeWhile (· ≠ 0)).length

/-- `if (s) size += strlen(s)`. -/
def addLen (size : Nat) : Option (List Nat) → Nat
  | some s => size + strlen s
  | none => size

/-- `calc_packed_size`, lib/src/matches_lookaside.cpp:35-48. -/
def calcPackedSize (debug : Bool) (m display description : Option (List Nat)) : Nat :=
  let size := addLen (3 + 2 + 1 + 1) m
  let size := if debug then size + 4 else size
  addLen (addLen size display) description

/-- Several bytes in a row. -/
def putAll : List Nat → List Nat → Nat → Option (List Nat × Nat)
  | [], buf, p => some (buf, p)
  | c :: l, buf, p => (put buf p c).bind fun r => putAll l r.1 r.2

/-- A string that begins with NUL. -/
def empty (s : Option (List Nat)) : Bool :=
  match s with
  | none => false
  | some l => l.headD 0 == 0

/-- What is packed. -/
structure Match where
  text : Option (List Nat)
  type : Nat
  display : Option (List Nat)
  description : Option (List Nat)
  appendChar : Nat
  flags : Nat
  deriving DecidableEq, Repr

/-- `pack_match`, lib/src/matches_lookaside.cpp:51-94.  The result also has the pointer `buffer` at the end. -/
def packMatch (debug : Bool) (buf : List Nat) (m : Match) : Option (List Nat × Nat × Bool) :=
  if empty m.text then some (buf, 0, false)
  else do
    let r ← appendString false m.text buf 0
    if empty m.display then return (r.1, r.2, false)
    let r ← putAll [m.type % 256, m.type / 256 % 256, m.appendChar, m.flags] r.1 r.2
    let r ← putAll (if debug then [58, 76, 65, 58] else []) r.1 r.2
    let r ← appendString false m.display r.1 r.2
    let r ← appendString false m.description r.1 r.2
    return (r.1, r.2, true)

/-- `match_extra`, lib/include/lib/matches_lookaside.h:9-16. -/
structure Extra where
  displayOffset : Nat := 0
  descriptionOffset : Nat := 0
  type : Nat := 0
  appendChar : Nat := 0
  flags : Nat := 0
  deriving DecidableEq, Repr

/-- `strlen` of a string in a block. -/
def strlenAt : List Nat → Option Nat
  | [] => none
  | c :: l => if c = 0 then some 0 else (strlenAt l).map (· + 1)

/-- `matches_lookaside::add`, lib/src/matches_lookaside.cpp:166-182.  `unsigned short` has 16 bits. -/
def unpack (debug : Bool) (block : List Nat) : Option Extra := do
  let len := (← strlenAt block) + 1
  let lo ← block[len]?
  let hi ← block[len + 1]?
  let append ← block[len + 2]?
  let flags ← block[len + 3]?
  let len := if debug then len + 4 + 4 else len + 4
  return { type := lo ||| (hi <<< 8), appendChar := append, flags := flags, displayOffset := len % 65536
           descriptionOffset := (len + (← strlenAt (block.drop len)) + 1) % 65536 }

/-- The string at an address in a block. -/
def readString (block : List Nat) (offset : Nat) : Option (List Nat) :=
  if block.length < offset then none else (strlenAt (block.drop offset)).map fun n => (block.drop offset).take n

/-- Memory: the blocks and their addresses. -/
abbrev Heap := Nat → Option (List Nat)

/-- `matches_lookaside`, lib/src/matches_lookaside.cpp:111-124. -/
structure Table where
  owner : Nat
  map : List (Nat × Extra)
  deriving DecidableEq, Repr

/-- `s_lookasides`, `s_match` and `s_extra`, lib/src/matches_lookaside.cpp:127, 191 and 192. -/
structure State where
  tables : List Table := []
  oneMatch : Nat := 0
  oneExtra : Extra := {}
  deriving DecidableEq, Repr

/-- `std::unordered_map::emplace`: an element that is there already stays. -/
def emplace (map : List (Nat × Extra)) (key : Nat) (extra : Extra) : List (Nat × Extra) :=
  if map.any (·.1 == key) then map else map ++ [(key, extra)]

/-- The loop of the constructor, lib/src/matches_lookaside.cpp:135-136; `matches` are the pointers after the first. -/
def addAll (debug : Bool) (heap : Heap) : List Nat → List (Nat × Extra) → Option (List (Nat × Extra))
  | [], map => some map
  | p :: ps, map =>
    if p = 0 then some map
    else (heap p).bind fun block => (unpack debug block).bind fun extra => addAll debug heap ps (emplace map p extra)

/-- `create_matches_lookaside`, lib/src/matches_lookaside.cpp:213-231. -/
def State.create (debug : Bool) (heap : Heap) (s : State) (owner : Nat) (matches_ : List Nat) : Option (State × Bool) :=
  if owner = 0 then some (s, false)
  else (addAll debug heap matches_ []).map fun map => ({ s with tables := ⟨owner, map⟩ :: s.tables }, true)

/-- `destroy_matches_lookaside`, lib/src/matches_lookaside.cpp:234-252. -/
def State.destroy (s : State) (owner : Nat) : State × Bool :=
  if owner = 0 then (s, false)
  else ({ s with tables := s.tables.eraseP (·.owner == owner) }, s.tables.any (·.owner == owner))

/-- `set_matches_lookaside_oneoff`, lib/src/matches_lookaside.cpp:255-261. -/
def State.setOne (s : State) (p type append flags : Nat) : State :=
  { s with oneMatch := p, oneExtra := { s.oneExtra with type := type, appendChar := append, flags := flags } }

/-- `clear_matches_lookaside_oneoff`, lib/src/matches_lookaside.cpp:264-268. -/
def State.clearOne (s : State) : State := { s with oneMatch := 0, oneExtra := {} }

/-- `s_empty_extra`, lib/src/matches_lookaside.cpp:99. -/
def noExtra : Extra := { type := 1 }

/-- `matches_lookaside::find`, lib/src/matches_lookaside.cpp:151-157. -/
def Table.find (t : Table) (p : Nat) : Option Extra := (t.map.find? (·.1 == p)).map (·.2)

/-- The loop in `lookup_match`, lib/src/matches_lookaside.cpp:200-205. -/
def findAll (p : Nat) : List Table → Option Extra
  | [] => none
  | t :: ts =>
    match t.find p with
    | some extra => some extra
    | none => findAll p ts

/-- `lookup_match`, lib/src/matches_lookaside.cpp:195-210, and the constructor of `match_details`, lines 102-106: the pointer
and the rest. -/
def State.lookup (s : State) (p : Nat) : Nat × Extra :=
  if s.oneMatch = p then (p, if p = 0 then noExtra else s.oneExtra)
  else
    match findAll p s.tables with
    | some extra => (p, if p = 0 then noExtra else extra)
    | none => (0, noExtra)

/-- `get_match`, `get_display` and `get_description`, lib/include/lib/matches_lookaside.h:24-26; `some none` is a null pointer. -/
def getString (heap : Heap) (p offset : Nat) : Option (Option (List Nat)) :=
  if p = 0 then some none else (heap p).bind fun block => (readString block offset).map some

/-- The variables of Readline that `override_match_append` sets. -/
structure Completion where
  appendChar : Nat
  suppress : Bool
  filename : Bool
  deriving DecidableEq, Repr

/-- `override_match_append`, lib/src/matches_lookaside.cpp:280-289. -/
def State.overrideAppend (s : State) (p : Nat) (c : Completion) : Completion :=
  let d := (s.lookup p).2
  { appendChar := if d.appendChar ≠ 0 then d.appendChar else c.appendChar
    suppress := if d.flags &&& 2 ≠ 0 then d.flags &&& 4 != 0 else c.suppress
    filename := c.filename && (d.type % 8 == 6 || d.type % 8 == 7) }

end Clink.Lookaside
