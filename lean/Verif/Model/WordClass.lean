import Verif.Model.Settings

/-!
Model of the colours of the input line.
Sources: clink/lib/src/word_classifications.cpp, clink/lua/src/lua_word_classifications.cpp.

A face is a byte.  `malloc` does not fail.  Undefined behaviour is `none`.

The keys of `m_face_map` are the addresses of the strings in `m_face_definitions`.  The text of a `str_moveable` stays where
it is when the string is moved, unless it is empty: then it is in the object itself (core/src/str.cpp, `str_moveable` and its
`operator =`), so that the key is invalid once the vector has moved its elements.  `stale` says that there is such a key.
Looking into the map then reads memory that was freed.
-/

namespace Clink.WordClass

/-- `word_class_info`, lib/include/lib/word_classifications.h:30-34; the class is 255 if there is none. -/
structure Info where
  argmatcher : Bool := false
  cls : Nat := 255
  deriving DecidableEq, Repr

/-- `word_classifications`, lib/include/lib/word_classifications.h:43-79, without the cache of `get_test_infos`; `cap` is the
capacity of `m_face_definitions`.  There is no difference between no array of faces and an empty one: `m_faces` is null if
and only if `m_length` is 0. -/
structure State where
  defs : List (List Nat) := []
  map : List (List Nat × Nat) := []
  cap : Nat := 0
  stale : Bool := false
  argmatchers : Bool := false
  faces : List Nat := []
  words : List Nat := []
  len : Nat := 0
  infos : Option (List (List Info)) := none
  deriving DecidableEq, Repr

/-- `clear`, lib/src/word_classifications.cpp:52-68.  The vector keeps its capacity. -/
def clear (st : State) : State := { cap := st.cap }

/-- Adding an element to the vector; `grow` is its new capacity if it is full. -/
def emplaceBack (grow : Nat → Nat) (s : List Nat) (st : State) : State :=
  if st.defs.length < st.cap then { st with defs := st.defs ++ [s] }
  else { st with defs := st.defs ++ [s], cap := grow st.defs.length, stale := st.stale || st.defs.any (· == []) }

/-- `m_face_map.emplace`; nothing happens if the key is there. -/
def emplaceMap (s : List Nat) (face : Nat) (st : State) : Option State :=
  if st.stale then none
  else if st.map.any fun e => Settings.same e.1 s then some st
  else some { st with map := st.map ++ [(s, face)] }

/-- Adding a definition, lib/src/word_classifications.cpp:80-82, 207-209. -/
def addDef (grow : Nat → Nat) (s : List Nat) (st : State) : Option State :=
  emplaceMap s (128 + st.defs.length) (emplaceBack grow s st)

/-- The loop over the definitions in `init`, lib/src/word_classifications.cpp:78-83. -/
def addDefs (grow : Nat → Nat) : List (List Nat) → State → Option State
  | [], st => some st
  | s :: ss, st => (addDef grow s st).bind (addDefs grow ss)

/-- `init`, lib/src/word_classifications.cpp:71-105; 32 is `FACE_SPACE`. -/
def init (grow : Nat → Nat) (n : Nat) (defs : List (List Nat)) (argmatchers : Bool) (st : State) : Option State :=
  (addDefs grow defs { clear st with argmatchers }).map fun st =>
    { st with faces := List.replicate n 32, words := List.replicate n 32, len := n }

/-- `finish`, lib/src/word_classifications.cpp:108-128. -/
def finish (st : State) : State :=
  { st with faces := (st.faces.zip st.words).map fun f => if f.1 = 32 then f.2 else f.1 }

/-- `strncmp(a, b, n) == 0` on memory. -/
def strncmp : Nat → List Nat → List Nat → Bool
  | 0, _, _ => true
  | _, [], _ => true
  | _, _, [] => true
  | n + 1, a :: as, b :: bs => a == b && (a == 0 || strncmp n as bs)

/-- `equals`, lib/src/word_classifications.cpp:131-175. -/
def equals (a b : State) : Bool :=
  if a.len = 0 ∧ b.len = 0 then true
  else if a.len = 0 ∨ b.len = 0 then false
  else a.defs.length == b.defs.length && a.len == b.len && strncmp a.len a.faces b.faces && strncmp a.len a.words b.words &&
    a.defs == b.defs && a.infos == b.infos

/-- `get_face`, lib/src/word_classifications.cpp:178-183. -/
def getFace (st : State) (pos : Nat) : Option Nat := if pos ≥ st.len then some 32 else st.faces[pos]?

/-- `get_face_output`, lib/src/word_classifications.cpp:186-192; for a face below 128 the index wraps around. -/
def getFaceOutput (st : State) (face : Nat) : Option (List Nat) := if face < 128 then none else st.defs[face - 128]?

/-- `ensure_face`, lib/src/word_classifications.cpp:195-210: the face, 0 if there is none left. -/
def ensureFace (grow : Nat → Nat) (s : List Nat) (st : State) : Option (Nat × State) :=
  if st.stale then none
  else match st.map.find? fun e => Settings.same e.1 s with
    | some e => some (e.2, st)
    | none =>
      if st.defs.length ≥ 100 then some (0, st)
      else (addDef grow s st).map fun st' => (128 + st.defs.length, st')

/-- The loop of `apply_face`, lib/src/word_classifications.cpp:216-222. -/
def applyLoop (len : Nat) (face : Nat) (overwrite : Bool) : Nat → Nat → List Nat → Option (List Nat)
  | _, 0, faces => some faces
  | start, n + 1, faces =>
    if start < len then
      match faces[start]? with
      | none => none
      | some f => applyLoop len face overwrite (start + 1) n (if overwrite || f == 32 then faces.set start face else faces)
    else some faces

/-- `apply_face`, lib/src/word_classifications.cpp:213-223. -/
def applyFace (words : Bool) (start length face : Nat) (overwrite : Bool) (st : State) : Option State :=
  if words then (applyLoop st.len face overwrite start length st.words).map fun w => { st with words := w }
  else (applyLoop st.len face overwrite start length st.faces).map fun f => { st with faces := f }

/-- `to_word_class`, lua/src/lua_word_classifier.cpp:23-49. -/
def toWordClass (wc : Nat) : Nat :=
  match (Color.bs "ouxcdafn").findIdx? (· == wc) with
  | some i => i
  | none => 0

/-- `resize`. -/
def resize {α : Type} (l : List α) (n : Nat) (x : α) : List α := l ++ List.replicate (n - l.length) x

/-- `classify_word`, lib/src/word_classifications.cpp:226-252. -/
def classifyWord (cmd word wc : Nat) (argmatcher overwrite : Bool) (st : State) : State :=
  let infos := resize (st.infos.getD []) (cmd + 1) []
  let row := resize (infos.getD cmd []) (word + 1) {}
  let info := row.getD word {}
  let info := if overwrite || info.cls == 255 then { argmatcher := argmatcher || info.argmatcher, cls := toWordClass wc } else info
  { st with infos := some (infos.set cmd (row.set word info)) }

/-- `get_test_infos`, lib/src/word_classifications.cpp:255-270. -/
def getTestInfos (st : State) : Option (List Info) := st.infos.map List.flatten

/-! The functions that scripts call. -/

/-- Conversion to `uint32`. -/
def u32 (n : Int) : Nat := (n % 4294967296).toNat

/-- `word_classifications:applycolor`, lua/src/lua_word_classifications.cpp:140-156. -/
def applyColor (grow : Nat → Nat) (start length : Int) (color : List Nat) (overwrite : Bool) (st : State) : Option State :=
  (ensureFace grow color st).bind fun (face, st) =>
    if face = 0 then some st else applyFace false (u32 (start - 1)) (u32 length) face overwrite st

/-- What `lua_word_classifications` knows of the words, lua/src/lua_word_classifications.cpp:160-182. -/
structure Words where
  words : List (Nat × Nat)
  shift : Nat
  cmdWord : Nat
  cmd : Nat
  test : Bool

/-- The face of a class, lua/src/lua_word_classifications.cpp:88-99; the classes have the letters of the faces. -/
def classFace (c : Nat) : Nat := if c ∈ Color.bs "ouxcdafn" then c else 111

/-- `word_classifications:classifyword`, lua/src/lua_word_classifications.cpp:70-112; the second result is false if it is an
error.  The text ends at its first NUL. -/
def luaClassify (w : Words) (index : Int) (s : List Nat) (overwrite : Bool) (st : State) : Option (State × Bool) :=
  let i := u32 (index - 1)
  match w.words[i]? with
  | none => some (st, false)
  | some (offset, length) =>
    let hasM := s.headD 0 == 109
    let arg := hasM && i == w.cmdWord
    let c := (if hasM then s.drop 1 else s).headD 0
    let face := if arg && st.argmatchers then 109 else classFace c
    (applyFace true offset length face overwrite st).map fun st =>
      (if w.test then classifyWord w.cmd (i + w.shift) c arg overwrite st else st, true)

/-! The line editor. -/

/-- What is done to the object of the line editor: `before_display_readline`, lib/src/line_editor_impl.cpp:1200-1202, moves it
away and starts anew for a line with the definitions of the old one. -/
inductive Op
  | line (n : Nat) (argmatchers : Bool)
  | ensure (color : List Nat)
  | apply (words : Bool) (start length face : Nat) (overwrite : Bool)
  | classify (cmd word wc : Nat) (argmatcher overwrite : Bool)
  | finish

/-- The state afterwards, and the colours asked for with their faces (oldest first). -/
def step (grow : Nat → Nat) (op : Op) (st : State) : Option (State × List (List Nat × Nat)) :=
  match op with
  | .line n a => (init grow n st.defs a {}).map fun st => (st, [])
  | .ensure s => (ensureFace grow s st).map fun (f, st) => (st, [(s, f)])
  | .apply w start n face o => (applyFace w start n face o st).map fun st => (st, [])
  | .classify c w wc a o => some (classifyWord c w wc a o st, [])
  | .finish => some (finish st, [])

def run (grow : Nat → Nat) : List Op → State → Option (State × List (List Nat × Nat))
  | [], st => some (st, [])
  | op :: ops, st => (step grow op st).bind fun (st, l) => (run grow ops st).map fun (st, l') => (st, l ++ l')

end Clink.WordClass
