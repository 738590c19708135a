/-!
Model of the removal of wake-up characters.
Source: clink/lib/src/wakeup_chars.cpp.

Memory is a list of characters (`char` or `wchar_t` as an unsigned number); access outside of it is `none`.  A negative
`char` is a number of at least 128 here, which the test `c < 0 || c >= 32` treats the same way.
-/

namespace Clink.Wakeup

/-- The test in the loop, lib/src/wakeup_chars.cpp:34: the character is kept. -/
def kept (mask c : Nat) : Bool := decide (32 ≤ c) || !mask.testBit c

/-- The loop of `strip_wakeup_chars_worker`, lib/src/wakeup_chars.cpp:28-42: the memory, `read` and `write`. -/
def stripLoop (mask : Nat) : Nat → List Nat → Nat → Nat → Option (List Nat × Nat × Nat)
  | 0, mem, read, write => some (mem, read, write)
  | n + 1, mem, read, write =>
    match mem[read]? with
    | none => none
    | some c =>
      if c = 0 then some (mem, read, write)
      else if kept mask c then
        if write ≠ read then
          if write < mem.length then stripLoop mask n (mem.set write c) (read + 1) (write + 1) else none
        else stripLoop mask n mem (read + 1) (write + 1)
      else stripLoop mask n mem (read + 1) write

/-- `strip_wakeup_chars_worker`, lib/src/wakeup_chars.cpp:19-45. -/
def strip (mask max : Nat) (mem : List Nat) : Option (List Nat) :=
  if max = 0 then some mem
  else
    match stripLoop mask max mem 0 0 with
    | none => none
    | some (mem, read, write) =>
      if write ≠ read then
        if write < mem.length then some (mem.set write 0) else none
      else some mem

/-- `str_len`: the characters before the first NUL, none if there is no NUL. -/
def strLen (mem : List Nat) : Option Nat :=
  if 0 ∈ mem then some (mem.idxOf 0) else none

/-- `strip_wakeup_chars(str_base&)`, lib/src/wakeup_chars.cpp:54-58 (`data` forgets the stored length). -/
def stripStr (mask : Nat) (mem : List Nat) : Option (List Nat) := (strLen mem).bind fun n => strip mask n mem

end Clink.Wakeup
