import Verif.Model.Utf
/-
Model of `errfile_reader` (clink/lib/src/errfile_reader.cpp:10-133), which reads the lines of the file into
which CMD wrote the exit code of the last command, and of the part of `host::edit_line` that takes the exit
code from the first line (clink/app/src/host/host.cpp:807-827).

The file is the list of its bytes.  `MultiByteToWideChar(CP_ACP, ..)` is a parameter.  The text of `out`
and of `m_buffer` is a list without the terminating NUL; that `out` cannot hold more than 65535 bytes is
left out.  Writing outside of `m_buffer` is `none`.
-/
namespace Clink.ErrFile
open Clink.Utf

/-- A `FILE*` that is read: the bytes not read yet, and what `feof` says. -/
structure File where
  rest : List Nat
  eof : Bool
deriving Repr, DecidableEq

/-- An `errfile_reader` (lib/include/lib/errfile_reader.h:15-17).  `utf16 = none` is `m_utf16 < 0`.  `cap` is
`m_buffer.size()`, in units of 16 bits. -/
structure Reader where
  file : File
  utf16 : Option Bool
  cap : Nat
deriving Repr, DecidableEq

/-- A new reader after `open` (lib/src/errfile_reader.cpp:22-28).  A `wstr_moveable` begins with room for the
NUL only (core/src/str.cpp:83-91). -/
def openFile (bytes : List Nat) : Reader := ⟨⟨bytes, false⟩, none, 1⟩

/-- `concat(&c, 1)` stops at a NUL (core/include/core/str.h:354-389). -/
def cat (s : List Nat) (c : Nat) : List Nat := if c = 0 then s else s ++ [c]

/-- The loop over the units of a line in UTF-16 (lib/src/errfile_reader.cpp:86-98): the text in `m_buffer`
and the file afterwards.  The units are read with `fgetc` twice, low byte first. -/
def loop16 : List Nat → List Nat → List Nat × File
  | [], buf => (buf, ⟨[], true⟩)
  | [_], buf => (buf, ⟨[], true⟩)
  | c1 :: c2 :: rest, buf =>
    let c := c1 + 256 * c2
    if c = 0 ∨ c = 10 then (buf, ⟨rest, false⟩) else loop16 rest (cat buf c)

/-- The loop over the bytes of a line (lib/src/errfile_reader.cpp:106-110): the text in `out` and the file
afterwards.  `c` is a `char`, which is signed, so that the byte 255 is equal to `EOF`. -/
def loop8 : List Nat → List Nat → List Nat × File
  | [], out => (out, ⟨[], true⟩)
  | c :: rest, out => if c = 255 ∨ c = 0 ∨ c = 10 then (out, ⟨rest, false⟩) else loop8 rest (cat out c)

/-- Removes a `'\r'` at the end (lib/src/errfile_reader.cpp:113-114). -/
def stripCR (out : List Nat) : List Nat :=
  if out.getLast? = some 13 then out.dropLast else out

/-- `m_buffer.reserve(n)` (core/include/core/str.h:157-190): the new size of the buffer; `none` if that is
too much for 16 bits and `reserve` returns `false`. -/
def reserve (cap n : Nat) : Option Nat :=
  if n + 1 ≤ cap then some cap
  else
    let size := (n + 1 + 63) / 64 * 64
    if size < 65536 then some size else none

/-- The end of `next` for files that are not UTF-16 (lib/src/errfile_reader.cpp:116-132).  `acp` gives the units that
`MultiByteToWideChar` gives for the bytes; it writes these and a NUL. -/
def convert (acp : List Nat → List Nat) (r : Reader) (out : List Nat) : Option (Bool × List Nat × Reader) :=
  let cch := (acp out).length + 1
  match reserve r.cap (cch / 2) with
  | none => some (true, out, r)
  | some size =>
    if cch ≤ size then some (true, (toUtf8 none (acp out)).out, { r with cap := size }) else none

/-- `next` from the second `if (m_utf16)` on (lib/src/errfile_reader.cpp:78-133), when `m_buffer` holds `buf`
and `out` holds `out`. -/
def body (acp : List Nat → List Nat) (r : Reader) (wide : Bool) (buf out : List Nat) :
    Option (Bool × List Nat × Reader) :=
  if wide then
    match r.file.rest with
    | [] => some (false, out, { r with file := ⟨[], true⟩ })
    | [_] => some (false, out, { r with file := ⟨[], true⟩ })
    | _ :: _ :: _ =>
      let l := loop16 r.file.rest buf
      some (true, stripCR (toUtf8 none l.1).out, { r with file := l.2 })
  else
    match r.file.rest with
    | [] => some (false, out, { r with file := ⟨[], true⟩ })
    | c :: rest =>
      if c = 255 then some (false, out, { r with file := ⟨rest, false⟩ })
      else
        let l := loop8 r.file.rest out
        convert acp { r with file := l.2 } (stripCR l.1)

/-- `errfile_reader::next` (lib/src/errfile_reader.cpp:31-133): what it returns, `out`, and the reader
afterwards.  `c2` is zero where the code shifts it (line 62). -/
def next (acp : List Nat → List Nat) (r : Reader) : Option (Bool × List Nat × Reader) :=
  if r.file.eof then some (false, [], r)
  else
    match r.utf16 with
    | some wide => body acp r wide [] []
    | none =>
      match r.file.rest with
      | [] => some (false, [], { r with file := ⟨[], true⟩ })
      | [c1] =>
        if c1 = 10 then some (true, [], { r with file := ⟨[], true⟩, utf16 := some false })
        else body acp { r with file := ⟨[c1], false⟩, utf16 := some false } false [] []
      | c1 :: c2 :: rest =>
        if c2 = 0 then
          if c1 = 10 then some (true, [], { r with file := ⟨rest, false⟩, utf16 := some true })
          else body acp { r with file := ⟨rest, false⟩, utf16 := some true } true (cat [] c1) []
        else if c1 = 10 then some (true, [], { r with file := ⟨c2 :: rest, false⟩, utf16 := some false })
        else body acp { r with file := ⟨c2 :: rest, false⟩, utf16 := some false } false [] (cat [] c1)

/-- `n` calls of `next`: what each returns and gives. -/
def calls (acp : List Nat → List Nat) : Nat → Reader → Option (List (Bool × List Nat))
  | 0, _ => some []
  | n + 1, r =>
    match next acp r with
    | none => none
    | some (ok, out, r') =>
      match calls acp n r' with
      | none => none
      | some l => some ((ok, out) :: l)

/-- The digits that `atoi` reads. -/
def atoiDigits (n : Int) : List Nat → Int
  | [] => n
  | c :: cs => if 48 ≤ c ∧ c ≤ 57 then atoiDigits (n * 10 + (c - 48)) cs else n

/-- `atoi` of the C library: white space, a sign, digits; a number that is too big is the biggest one. -/
def atoi (s : List Nat) : Int :=
  let s := s.dropWhile fun c => c = 32 ∨ (9 ≤ c ∧ c ≤ 13)
  let v :=
    match s with
    | 45 :: cs => - atoiDigits 0 cs
    | 43 :: cs => atoiDigits 0 cs
    | cs => atoiDigits 0 cs
  if v < -2147483648 then -2147483648 else if 2147483647 < v then 2147483647 else v

/-- What `host::edit_line` hands to `os::set_errorlevel` (app/src/host/host.cpp:807-827), if the file can be
opened. -/
def errorlevel (acp : List Nat → List Nat) (bytes : List Nat) : Option Int :=
  match next acp (openFile bytes) with
  | none => none
  | some (true, s, _) => some (atoi s)
  | some (false, _, _) => some 0

end Clink.ErrFile
