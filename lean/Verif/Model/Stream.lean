/-!
Model of session streams.
Source: clink/lua/src/sessionstream.cpp, clink/lua/src/sessionstream.h, clink/lua/src/clink_api.cpp (`open_session_stream`),
clink/lua/src/io_api.cpp (`io_truncate`).

Bytes are numbers.  Memory from `realloc` that was not written before holds arbitrary bytes (`Cfg.junk`).  Allocations succeed, and
`lua_State` is left out: an operation takes its arguments and gives what the Lua function returns.  `sscanf` is a parameter.  Numbers do not wrap: positions are at most
`MAX_SESSION_STREAM_SIZE`.  Not modelled: `lines` (it calls `ss_read`), `flush` and `setvbuf` (they do nothing), `__tostring`,
`discard_all_session_streams`.
-/

namespace Clink.Stream

structure Cfg where
  /-- `MAX_SESSION_STREAM_SIZE`, sessionstream.cpp:15. -/
  max : Nat
  /-- `LUAL_BUFFERSIZE`, lua/src/luaconf.h:383; `BUFSIZ` is 512. -/
  buf : Nat
  /-- What is at an index of memory that has not been written. -/
  junk : Nat → Nat
  /-- `sscanf` with `%lf%n`: from a text up to its NUL, the number and how many bytes were read. -/
  num : List Nat → Option (Nat × Nat)

/-- `session_stream`, sessionstream.h:19-40; the capacity is the length of the memory. -/
structure Data where
  mem : List Nat := []
  size : Nat := 0
  deriving DecidableEq, Repr

/-- The first part of `session_stream::write`, sessionstream.cpp:49-66, for `offset + count_plus_nul`. -/
def Data.room (k : Cfg) (d : Data) (n : Nat) : Data :=
  if d.mem.length < n then
    let c := max k.buf (d.mem.length * 3 / 2)
    let c := if c < n then n * 3 / 2 else c
    let c := min c k.max
    { d with mem := d.mem.take c ++ (List.range (c - d.mem.length)).map fun i => k.junk (d.mem.length + i) }
  else d

/-- `memcpy` into the memory. -/
def splice (mem : List Nat) (off : Nat) (b : List Nat) : List Nat := mem.take off ++ b ++ mem.drop (off + b.length)

/-- `session_stream::write`, sessionstream.cpp:45-89: the stream, the new offset and the number of bytes written. -/
def Data.write (k : Cfg) (d : Data) (off : Nat) (b : List Nat) : Data × Nat × Nat :=
  let d := d.room k (off + b.length + 1)
  let usable := d.mem.length - 1
  if usable ≤ off then (d, off, 0)
  else
    let n := min b.length (usable - off)
    let d := { d with mem := splice d.mem off (b.take n) }
    let off := off + n
    (if d.size < off then { mem := splice d.mem off [0], size := off } else d, off, n)

/-- What is from an offset to the end. -/
def Data.rest (d : Data) (off : Nat) : List Nat := (d.mem.take d.size).drop off

/-- `session_stream::read` in text mode, sessionstream.cpp:97-112: what is read, and the bytes passed. -/
def readText : Nat → List Nat → List Nat × Nat
  | 0, _ => ([], 0)
  | _ + 1, [] => ([], 0)
  | n + 1, c :: r =>
    if c = 13 ∧ r.head? = some 10 then
      let p := readText n (r.drop 1)
      (10 :: p.1, p.2 + 2)
    else
      let p := readText n r
      (c :: p.1, p.2 + 1)

/-- `session_stream::read`, sessionstream.cpp:92-126. -/
def read (text : Bool) (n : Nat) (l : List Nat) : List Nat × Nat :=
  if text then readText n l else (l.take n, min n l.length)

/-- The loop of `session_stream::gets`, sessionstream.cpp:135-148; `left` is how much room the buffer has, `acc` is what it holds. -/
def getsGo (text : Bool) : Nat → List Nat → List Nat → List Nat × Nat
  | 0, acc, _ => (acc, 0)
  | _ + 1, acc, [] => (acc, 0)
  | left + 1, acc, c :: r =>
    if c = 10 then (if text ∧ acc.getLast? = some 13 then acc.dropLast ++ [10] else acc ++ [10], 1)
    else
      let p := getsGo text left (acc ++ [c]) r
      (p.1, p.2 + 1)

/-- `session_stream::gets`, sessionstream.cpp:129-153. -/
def gets (text : Bool) (max : Nat) (l : List Nat) : List Nat × Nat := getsGo text (max - 1) [] l

theorem getsGo_pos (text : Bool) {n c : Nat} {acc r : List Nat} (h : n ≠ 0) : 0 < (getsGo text n acc (c :: r)).2 := by
  match n, h with
  | n + 1, _ =>
    unfold getsGo
    split <;> simp

/-- `ss_read_line`, sessionstream.cpp:489-515: the text, whether it succeeds, and the bytes passed.  The buffer has room for at least one byte (otherwise nothing is read). -/
def readLine (buf : Nat) (text chop : Bool) (l acc : List Nat) : List Nat × Bool × Nat :=
  let p := gets text buf l
  if h : p.1 = [] ∨ l = [] ∨ buf - 1 = 0 then (acc, !acc.isEmpty, 0)
  else
    let s := p.1.takeWhile (· != 0)
    if s.getLast? ≠ some 10 then
      let q := readLine buf text chop (l.drop p.2) (acc ++ s)
      (q.1, q.2.1, p.2 + q.2.2)
    else (acc ++ (if chop then s.dropLast else s), true, p.2)
termination_by l.length
decreasing_by
  simp only [not_or] at h
  obtain ⟨-, h2, h3⟩ := h
  match l, h2 with
  | c :: r, _ =>
    have : 0 < (gets text buf (c :: r)).2 := getsGo_pos text h3
    simp only [List.length_drop, List.length_cons]
    omega

theorem read_pos {text : Bool} {n : Nat} {l : List Nat} (h : n ≠ 0) (hl : l ≠ []) : 0 < (read text n l).2 := by
  match n, h, l, hl with
  | n + 1, _, c :: r, _ =>
    unfold read
    split
    · unfold readText
      split <;> simp
    · simp

/-- `ss_read_all`, sessionstream.cpp:516-531.  The size of the buffer is not 0 (otherwise it never ends). -/
def readAll (max : Nat) (text : Bool) (rlen : Nat) (l : List Nat) : List Nat × Nat :=
  let p := read text rlen l
  if h : p.1.length < rlen ∨ rlen = 0 ∨ l = [] then p
  else
    let q := readAll max text (min (rlen * 2) max) (l.drop p.2)
    (p.1 ++ q.1, p.2 + q.2)
termination_by l.length
decreasing_by
  simp only [not_or] at h
  have := read_pos (text := text) h.2.1 h.2.2
  have h3 : 0 < l.length := List.length_pos_iff.2 h.2.2
  simp only [List.length_drop]
  omega

/-- What can be read: so many bytes, a line without or with its end, everything, a number. -/
inductive Fmt
  | chars (n : Nat)
  | line
  | lineEnd
  | all
  | number
  deriving DecidableEq, Repr

inductive Val
  | str (s : List Nat)
  | num (v : Nat)
  | nil
  deriving DecidableEq, Repr

/-- `luaL_SessionStream::m_flags`; `text` is `m_text_mode`. -/
structure Flags where
  create : Bool := false
  write : Bool := false
  read : Bool := false
  append : Bool := false
  only : Bool := false
  text : Bool := true
  deriving DecidableEq, Repr

/-- A part of `open_session_stream`, clink_api.cpp:1049-1079: the flags and whether the stream is cleared.  None if the mode is not valid. -/
def parseMode (m : List Nat) : Option (Flags × Bool) :=
  match m with
  | [] => none
  | c :: m =>
    let start : Option Flags :=
      if c = 114 then some { read := true }
      else if c = 119 then some { create := true, write := true }
      else if c = 97 then some { create := true, write := true, append := true }
      else none
    start.bind fun f =>
      let wr := c == 119
      let (f, m) := if m.head? = some 43 then ({ f with read := true, write := true }, m.drop 1) else (f, m)
      let (f, m) := if wr && m.head? = some 120 then ({ f with only := true }, m.drop 1) else (f, m)
      let (f, m) := if m.head? = some 98 then ({ f with text := false }, m.drop 1) else (f, m)
      if m = [] then some (f, wr) else none

/-- `luaL_SessionStream`, sessionstream.h:43-96.  The named streams are never removed, so a name is as good as a pointer. -/
structure Handle where
  name : List Nat
  flags : Flags
  off : Nat := 0
  live : Bool := true
  deriving DecidableEq, Repr

/-- One of the things that `ss_read` reads, sessionstream.cpp:470-543, 565-597, from `l`, which is what follows the offset; `c` is the C string there.  Also whether it succeeds, and
the bytes passed.  `ss_test_eof` gives the empty string and succeeds if there is nothing left. -/
def readFmt (k : Cfg) (text : Bool) (l c : List Nat) : Fmt → Val × Bool × Nat
  | .chars 0 => (.str [], l.isEmpty, 0)
  | .chars (n + 1) =>
    let p := read text (min (n + 1) k.max) l
    (.str p.1, !p.1.isEmpty, p.2)
  | .line =>
    let p := readLine k.buf text true l []
    (.str p.1, p.2.1, p.2.2)
  | .lineEnd =>
    let p := readLine k.buf text false l []
    (.str p.1, p.2.1, p.2.2)
  | .all =>
    let p := readAll k.max text k.buf l
    (.str p.1, true, p.2)
  | .number =>
    if l = [] then (.nil, false, 0)
    else
      match k.num c with
      | some (v, n) => (.num v, true, n)
      | none => (.nil, false, 0)

/-- `m_data + offset` as a C string, sessionstream.cpp:156-167. -/
def Data.cstr (d : Data) (off : Nat) : List Nat := (d.mem.drop off).takeWhile (· != 0)

/-- `ss_read`, sessionstream.cpp:544-605: the values, and the new offset. -/
def readFmts (k : Cfg) (text : Bool) (d : Data) : Nat → List Fmt → List Val × Nat
  | off, [] => ([], off)
  | off, f :: fs =>
    let p := readFmt k text (d.rest off) (d.cstr off) f
    if p.2.1 then
      let q := readFmts k text d (off + p.2.2) fs
      (p.1 :: q.1, q.2)
    else ([.nil], off + p.2.2)

/-- The loop of `luaL_SessionStream::write` in text mode, sessionstream.cpp:341-357; `acc` is what is between `buffer` and `p`.  Gives the stream, the offset and the number of bytes
written without those added. -/
def writeText (k : Cfg) : List Nat → List Nat → Data → Nat → Nat → Data × Nat × Nat
  | acc, [], d, off, total =>
    if acc = [] then (d, off, total)
    else
      let w := d.write k off acc
      (w.1, w.2.1, total + w.2.2)
  | acc, c :: r, d, off, total =>
    if c = 10 ∨ acc.length = 4096 then
      let s := if acc = [] then (d, off, total) else
        let w := d.write k off acc
        (w.1, w.2.1, total + w.2.2)
      let s := if c = 10 then
        let w := s.1.write k s.2.1 [13]
        (w.1, w.2.1, s.2.2)
      else s
      writeText k [c] r s.1 s.2.1 s.2.2
    else writeText k (acc ++ [c]) r d off total

/-- `luaL_SessionStream::write`, sessionstream.cpp:335-358. -/
def Handle.put (k : Cfg) (h : Handle) (d : Data) (b : List Nat) : Data × Nat × Nat :=
  if h.flags.text then writeText k [] b d h.off 0 else d.write k h.off b

/-- The loop of `luaL_SessionStream::write(lua_State*)`, sessionstream.cpp:663-681: the stream, the offset, and whether all was written. -/
def writeArgs (k : Cfg) (h : Handle) : List (List Nat) → Data → Nat → Data × Nat × Bool
  | [], d, off => (d, off, true)
  | b :: bs, d, off =>
    let off := if h.flags.append then d.size else off
    let w := { h with off := off }.put k d (b.take k.max)
    if w.2.2 = b.length then writeArgs k h bs w.1 w.2.1 else (w.1, w.2.1, false)

inductive Whence
  | set
  | cur
  | stop
  deriving DecidableEq, Repr

/-- `luaL_SessionStream::seek`, sessionstream.cpp:613-638: `size` is that of the stream; arithmetic modulo 2^64. -/
def seekTo (k : Cfg) (size off : Nat) (w : Whence) (by_ : Int) : Nat :=
  let base := match w with | .set => 0 | .cur => off | .stop => size
  min (((base : Int) + by_) % 18446744073709551616).toNat k.max

structure State where
  streams : List Nat → Option Data := fun _ => none
  handles : List Handle := []

inductive Op
  | opens (name mode : List Nat)
  | write (h : Nat) (args : List (List Nat))
  | read (h : Nat) (fmts : List Fmt)
  | seek (h : Nat) (w : Whence) (by_ : Int)
  | truncate (h : Nat)
  | close (h : Nat)
  deriving DecidableEq, Repr

/-- What the Lua function returns: a new stream, success, values, a position, a failure with its `errno`, or an error is raised. -/
inductive Out
  | stream (h : Nat)
  | ok
  | values (l : List Val)
  | pos (n : Nat)
  | failed
  | exists_
  | missing
  | badf
  | error
  deriving DecidableEq, Repr

def setData (m : List Nat → Option Data) (name : List Nat) (d : Data) : List Nat → Option Data := fun n => if n = name then some d else m n

/-- `luaL_SessionStream::make_new`, sessionstream.cpp:202-279. -/
def State.make (s : State) (name : List Nat) (f : Flags) (clear : Bool) : State × Out :=
  match s.streams name with
  | some d =>
    if f.only then (s, .exists_)
    else
      ({ streams := setData s.streams name (if clear then {} else d), handles := s.handles ++ [{ name := name, flags := f }] }, .stream s.handles.length)
  | none =>
    if f.create then ({ streams := setData s.streams name {}, handles := s.handles ++ [{ name := name, flags := f }] }, .stream s.handles.length)
    else (s, .missing)

/-- What is done with a handle that is open (`tostream`, sessionstream.cpp:189-199). -/
def State.on (s : State) (h : Nat) (f : Handle → Data → State × Out) : State × Out :=
  match s.handles[h]? with
  | none => (s, .error)
  | some x =>
    if !x.live then (s, .error)
    else
      match s.streams x.name with
      | none => (s, .error)
      | some d => f x d

/-- `close` (407-412), `read` (606-610), `seek` (613-638), `write` (649-685) of `luaL_SessionStream` in sessionstream.cpp:407-685, and `io_truncate`, io_api.cpp:676-684, with `truncate`,
sessionstream.cpp:170-175, 388-395. -/
def State.step (k : Cfg) (s : State) : Op → State × Out
  | .opens name mode =>
    match parseMode mode with
    | none => (s, .error)
    | some (f, clear) => s.make name f clear
  | .write h args => s.on h fun x d =>
    if !x.flags.write then (s, .badf)
    else
      let w := writeArgs k x args d x.off
      ({ streams := setData s.streams x.name w.1, handles := s.handles.set h { x with off := w.2.1 } }, if w.2.2 then .ok else .failed)
  | .read h fmts => s.on h fun x d =>
    if !x.flags.read then (s, .badf)
    else
      let r := readFmts k x.flags.text d x.off (if fmts = [] then [.line] else fmts)
      ({ s with handles := s.handles.set h { x with off := r.2 } }, .values r.1)
  | .seek h w b => s.on h fun x d =>
    let p := seekTo k d.size x.off w b
    ({ s with handles := s.handles.set h { x with off := p } }, .pos p)
  | .truncate h => s.on h fun x d =>
    ({ s with streams := setData s.streams x.name (if x.flags.write && decide (x.off < d.size) then { d with size := x.off } else d) }, .ok)
  | .close h => s.on h fun x _ => ({ s with handles := s.handles.set h { x with live := false } }, .ok)

def State.run (k : Cfg) : State → List Op → List Out
  | _, [] => []
  | s, op :: ops => (s.step k op).2 :: State.run k (s.step k op).1 ops

end Clink.Stream
