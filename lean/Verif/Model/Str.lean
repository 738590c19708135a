import Verif.Model.Utf
/-
Model of the string class `str_impl` (clink/core/include/core/str.h) at the level of its
memory: the buffer contents, the 16-bit capacity and the cached length.

Undefined behaviour (reading past the buffer because no NUL is found, writing outside the
buffer, reading past the end of a source array) is the outcome `none`.

Not modelled: `malloc` returning null (the code does not check), aliasing of the source
with the buffer being grown, and `int32` overflow of `len + n` (needs n > 2^31 - 65536).
-/
namespace Clink.Str

/-- `str_impl` fields, core/include/core/str.h:92-97.  `mem` is `m_data[0 .. m_size)`, so
`m_size = mem.length`; `cache` is `m_length` (0 = unknown); `m_owns_ptr` is ignored. -/
structure Str where
  mem : List Nat
  cache : Nat
  growable : Bool
deriving Repr, DecidableEq

/-- `strlen`: index of the first NUL; `none` (UB) when there is none in the buffer. -/
def strlen (mem : List Nat) : Option Nat :=
  if (mem.takeWhile (· != 0)).length < mem.length then some (mem.takeWhile (· != 0)).length else none

/-- `str_impl::length()`, core/include/core/str.h:239-246 (result and updated cache). -/
def Str.length (s : Str) : Option (Nat × Str) :=
  if s.cache ≠ 0 then some (s.cache, s)
  else (strlen s.mem).map (fun n => (n, { s with cache := n }))

/-- Store `xs` at offset `k`; `none` (UB) outside the buffer. -/
def store (mem : List Nat) (k : Nat) (xs : List Nat) : Option (List Nat) :=
  if k + xs.length ≤ mem.length then some (mem.take k ++ xs ++ mem.drop (k + xs.length)) else none

/-- Round up to a multiple of 64: `(new_size + 63) & ~63`, core/include/core/str.h:171. -/
def round64 (n : Nat) : Nat := (n + 63) / 64 * 64

/-- `str_impl::reserve(new_size, exact)`, core/include/core/str.h:158-190.
`junk` is the arbitrary content of freshly allocated memory.  Assigning to the `uint16`
`m_size` and comparing (lines 174-180) is "fails when not below 65536". -/
def Str.reserve (junk : Nat → Nat) (s : Str) (newSize : Nat) (exact : Bool := false) : Str × Bool :=
  let newSize := if exact then newSize else newSize + 1
  if s.mem.length ≥ newSize then (s, true)
  else if !s.growable then (s, false)
  else
    let newSize := if exact then newSize else round64 newSize
    if newSize % 65536 ≠ newSize then (s, false)
    else ({ s with mem := s.mem ++ (List.range (newSize - s.mem.length)).map junk }, true)

/-- `str_impl::clear()`, core/include/core/str.h:256-261. -/
def Str.clear (s : Str) : Option Str :=
  (store s.mem 0 [0]).map (fun m => { s with mem := m, cache := 0 })

/-- `str_impl::data()`, core/include/core/str.h:210-215: forget the cached length. -/
def Str.data (s : Str) : Str := { s with cache := 0 }

/-- `str_impl::truncate(pos)`, core/include/core/str.h:271-279. -/
def Str.truncate (s : Str) (pos : Nat) : Option Str :=
  if pos ≥ s.mem.length then some s
  else (store s.mem pos [0]).map (fun m => { s with mem := m, cache := pos })

/-- Characters trimmed at the end, core/include/core/str.h:290. -/
def isTrail (c : Nat) : Bool := c == 32 || c == 9 || c == 13 || c == 10
/-- Characters trimmed at the front, core/include/core/str.h:303. -/
def isLead (c : Nat) : Bool := c == 32 || c == 9

/-- The first loop of `trim()`, core/include/core/str.h:288-293: number of units kept. -/
def trimEnd (mem : List Nat) : Nat → Nat
  | 0 => 0
  | e + 1 => if isTrail (mem.getD e 0) then trimEnd mem e else e + 1

/-- The second loop of `trim()`, core/include/core/str.h:301-306: units skipped.
The first argument is `end - pos`. -/
def trimLead (mem : List Nat) : Nat → Nat → Nat
  | 0, pos => pos
  | d + 1, pos => if isLead (mem.getD pos 0) then trimLead mem d (pos + 1) else pos

/-- `str_impl::trim()`, core/include/core/str.h:282-313. -/
def Str.trim (s : Str) : Option Str :=
  match s.length with
  | none => none
  | some (len, s) =>
    let e := trimEnd s.mem len
    let s1 : Option Str :=
      if e < s.mem.length then (store s.mem e [0]).map (fun m => { s with mem := m, cache := e })
      else some s
    match s1 with
    | none => none
    | some s =>
      let pos := trimLead s.mem e 0
      if pos > 0 then
        let n := s.cache - pos
        -- memmove(m_data, pos, m_length + 1)
        if pos + n + 1 ≤ s.mem.length then
          (store s.mem 0 ((s.mem.drop pos).take (n + 1))).map (fun m => { s with mem := m, cache := n })
        else none
      else some s

/-- The copy loop of `concat`, core/include/core/str.h:382-383: the units copied
(`none` = reads past the end of the source array). -/
def copyLoop : Nat → List Nat → Option (List Nat)
  | 0, _ => some []
  | _ + 1, [] => none
  | r + 1, c :: src => if c = 0 then some [] else (copyLoop r src).map (c :: ·)

/-- The effective count in `concat`, core/include/core/str.h:360-361:
`if (n < 0) n = str_len(src)`. -/
def argLen (src : List Nat) : Option Nat → Option Nat
  | some n => some n
  | none => strlen src

/-- `str_impl::concat(src, n)`, core/include/core/str.h:354-389 for `src != nullptr`
(a null source returns false and does nothing, lines 357-358).
`src` is the readable memory at `src`; `n = none` is the default -1 (`strlen`). -/
def Str.concat (junk : Nat → Nat) (s : Str) (src : List Nat) (n : Option Nat) : Option (Str × Bool) :=
  match argLen src n with
  | none => none
  | some n =>
    match s.length with
    | none => none
    | some (len, s) =>
      let s := (s.reserve junk (len + n)).1
      -- int32 remaining = m_size - len - 1
      let rem : Int := (s.mem.length : Int) - len - 1
      let truncated : Bool := decide (rem < n)
      let rem := if truncated then rem else n
      if rem > 0 then
        match copyLoop rem.toNat src with
        | none => none
        | some xs => (store s.mem len (xs ++ [0])).map
            (fun m => ({ s with mem := m, cache := len + xs.length }, !truncated))
      else some (s, !truncated)

/-- `str_impl::concat_no_truncate(src, n)`, core/include/core/str.h:392-413 for a non-null
source and `n ≥ 0` (lines 395-398 return false otherwise). -/
def Str.concatNT (junk : Nat → Nat) (s : Str) (src : List Nat) (n : Nat) : Option (Str × Bool) :=
  if n = 0 then some (s, true)
  else
    match s.length with
    | none => none
    | some (len, s) =>
      let s := (s.reserve junk (len + n)).1
      let rem : Int := (s.mem.length : Int) - len - 1
      if rem < n then some (s, false)
      else if src.length < n then none
      else
        -- memcpy; m_length += n; m_data[m_length] = 0
        (store s.mem len (src.take n ++ [0])).map
          (fun m => ({ s with mem := m, cache := s.cache + n }, true))

/-- `str_impl::copy(src)`, core/include/core/str.h:346-351. -/
def Str.copy (junk : Nat → Nat) (s : Str) (src : List Nat) : Option (Str × Bool) :=
  s.clear.bind (fun s => s.concat junk src none)

/-- `str<COUNT, GROWABLE>::str()`, core/include/core/str.h:631: a buffer with arbitrary
contents, cleared. -/
def Str.init (mem : List Nat) (growable : Bool) : Option Str :=
  Str.clear { mem := mem, cache := 0, growable := growable }

/-- `to_utf8(str_base& out, wstr_iter&)`, core/src/str_convert.cpp:139-151: append the
conversion of `w`.  The memory written is the model of the raw converter. -/
def Str.appendUtf16 (junk : Nat → Nat) (s : Str) (w : List Nat) : Option Str :=
  match s.length with
  | none => none
  | some (len, s) =>
    let s := if s.growable then (s.reserve junk (len + (Utf.toUtf8 none w).out.length)).1 else s
    let s := s.data
    (store s.mem len (Utf.toUtf8 (some (s.mem.length - len)) w).memory).map (fun m => { s with mem := m })

/-- Operations of the class used by the operation-sequence theorems. -/
inductive Op where
  | clear
  | truncate (pos : Nat)
  | trim
  | concat (src : List Nat) (n : Option Nat)
  | concatNT (src : List Nat) (n : Nat)
  | copy (src : List Nat)
  | data
  | reserve (n : Nat) (exact : Bool)
deriving Repr

/-- Dispatch of one operation (the functions above); the Boolean is the return value
(true for void functions). -/
def step (junk : Nat → Nat) (s : Str) : Op → Option (Str × Bool)
  | .clear => s.clear.map (·, true)
  | .truncate p => (s.truncate p).map (·, true)
  | .trim => s.trim.map (·, true)
  | .concat src n => s.concat junk src n
  | .concatNT src n => s.concatNT junk src n
  | .copy src => s.copy junk src
  | .data => some (s.data, true)
  | .reserve n e => some (s.reserve junk n e)

end Clink.Str
