/-
Model of the UTF-8 / UTF-16 iterators and converters.
Sources: clink/core/src/str_iter.cpp, clink/core/include/core/str_iter.h,
         clink/core/src/str_convert.cpp.

Bytes and UTF-16 units are natural numbers (a byte is `< 256`, a unit `< 65536`);
an iterator is the list of units from `m_ptr` up to (not including) `m_end`.
An iterator built on a NUL terminated string (length -1) is the list of units
including the terminating NUL: `more()` stops at the NUL either way.
-/
namespace Clink.Utf

/-- `str_iter_impl::more()`, core/include/core/str_iter.h:93-96:
`m_ptr != m_end && *m_ptr != '\0'`. -/
def more : List Nat → Bool
  | [] => false
  | c :: _ => c != 0

/-- Loop body of `str_iter_impl<char>::next()`, core/src/str_iter.cpp:16-39.
`ax` is the accumulated value, `el` is `encode_length`.  The `do … while (more())`
loop is entered only when `more()`; since the model tests `more()` in front of every
iteration (and the early return at lines 11-12 also yields 0 without moving) one
recursive function covers both.  `int32` is modelled by `Nat`; `Utf.next8_lt` shows
that the value stays below 2^21 so no overflow is hidden. -/
def next8Loop (ax el : Nat) : List Nat → Nat × List Nat
  | [] => (0, [])
  | c :: rest =>
    if c = 0 then (0, c :: rest)
    else
      let ax := (ax <<< 6) ||| (c &&& 0x7f)
      if el ≠ 0 then next8Loop ax (el - 1) rest
      else if (c &&& 0xc0) < 0xc0 then (ax, rest)
      else
        let el := if c &&& 0x20 ≠ 0 then 1 + (if c &&& 0x10 ≠ 0 then 1 else 0) else 0
        next8Loop (ax &&& (0x1f >>> el)) el rest

/-- `str_iter_impl<char>::next()`, core/src/str_iter.cpp:8-40.
Returns the code point (0 = none) and the remaining iterator. -/
def next8 (l : List Nat) : Nat × List Nat := next8Loop 0 0 l

/-- `str_iter_impl<wchar_t>::next()`, core/src/str_iter.cpp:43-77.  The loop runs at
most twice: the `continue` at line 57 happens only when the next unit exists and is
a low surrogate, so the second round takes the branch at lines 59-65 with
`ax ≥ 1 << 10`.  `*m_ptr` at line 54 is read only when `more()`.
`c = ax + c - 0x35fdc00` cannot be negative there. -/
def next16 : List Nat → Nat × List Nat
  | [] => (0, [])
  | c :: rest =>
    if c = 0 then (0, c :: rest)
    else if c &&& 0xfc00 = 0xd800 then
      match rest with
      | [] => (0xfffd, [])
      | d :: rest' =>
        if d = 0 ∨ d &&& 0xfc00 ≠ 0xdc00 then (0xfffd, d :: rest')
        else ((c <<< 10) + d - 0x35fdc00, rest')
    else if c &&& 0xfc00 = 0xdc00 then (0xfffd, rest)   -- line 61: ax = 0 < 1 << 10
    else (c, rest)

/-- Bytes written for one code point by the body of the loop in `to_utf8`,
core/src/str_convert.cpp:103-125 (`builder << c` for ASCII; otherwise lines 109-125).
`char(0xfc0 >> (n - 2))` keeps the low 8 bits. -/
def enc8 (c : Nat) : List Nat :=
  if c < 0x80 then [c]
  else
    let n := 2 + (if c ≥ 1 <<< 11 then 1 else 0) + (if c ≥ 1 <<< 16 then 1 else 0)
    let lead (v : Nat) := (((v &&& 0x1f) ||| ((0xfc0 >>> (n - 2)) % 256)) ||| 0x80) % 256
    let cont (v : Nat) := ((v &&& 0x3f) ||| 0x80) % 256
    if n = 4 then [lead (c >>> 18), cont (c >>> 12), cont (c >>> 6), cont c]
    else if n = 3 then [lead (c >>> 12), cont (c >>> 6), cont c]
    else [lead (c >>> 6), cont c]

/-- Units written for one code point by `builder<wchar_t>::operator<<`,
core/src/str_convert.cpp:36-49. `wchar_t(value)` keeps 16 bits. -/
def enc16 (c : Nat) : List Nat :=
  if c > 0xffff then [((c >>> 10) + 0xd7c0) % 65536, ((c &&& 0x3ff) + 0xdc00) % 65536]
  else [c]

/-- The output cursor `builder<TYPE>`, core/src/str_convert.cpp:13-33.
`cap = none` is `data == nullptr` (counting only; the units are kept in the model but
only their number is observable); `cap = some n` is a buffer of `max_length = n`. -/
structure Builder where
  cap : Option Nat
  out : List Nat
deriving Repr, DecidableEq

/-- `builder::truncated()`, core/src/str_convert.cpp:18: `start && write >= end`, with
`end = data + max_length - 1`. -/
def Builder.truncated (b : Builder) : Bool :=
  match b.cap with
  | none => false
  | some n => decide (b.out.length + 1 ≥ n)

/-- One unit through `builder::operator<<`, core/src/str_convert.cpp:43-46, 55-58:
dropped silently when the buffer is full. -/
def Builder.put (b : Builder) (u : Nat) : Builder :=
  match b.cap with
  | none => { b with out := b.out ++ [u] }
  | some n => if b.out.length + 1 < n then { b with out := b.out ++ [u] } else b

/-- Several units, in order. -/
def Builder.puts (b : Builder) (us : List Nat) : Builder := us.foldl Builder.put b

theorem next8Loop_len (ax el : Nat) (l : List Nat) : (next8Loop ax el l).2.length ≤ l.length := by
  fun_induction next8Loop ax el l <;> simp_all <;> omega

theorem next8_shorter (l : List Nat) (h : more l = true) :
    (next8 l).2.length < l.length := by
  cases l with
  | nil => simp [more] at h
  | cons c rest =>
    have hc : c ≠ 0 := by simpa [more] using h
    unfold next8 next8Loop
    simp only [hc, ne_eq, not_true_eq_false, ↓reduceIte]
    split
    · simp
    · exact Nat.lt_succ_of_le (next8Loop_len _ _ rest)

theorem next16_shorter (l : List Nat) (h : more l = true) :
    (next16 l).2.length < l.length := by
  cases l with
  | nil => simp [more] at h
  | cons c rest =>
    have hc : c ≠ 0 := by simpa [more] using h
    unfold next16
    simp only [hc, if_false]
    split
    · split
      · simp
      · split
        · simp
        · simp only [List.length_cons]; omega
    · split <;> simp

/-- The conversion loop shared by `to_utf16` and `to_utf8`,
core/src/str_convert.cpp:100-126 and 208-210:
`while (!builder.truncated() && (c = iter.next())) builder << encoding of c`.
`next` is the source iterator, `enc` the units written for one code point.
Fuel: one unit per element suffices, see `Utf.convLoop_fuel`. -/
def convLoop (next : List Nat → Nat × List Nat) (enc : Nat → List Nat) :
    Nat → Builder → List Nat → Builder
  | 0, b, _ => b
  | fuel + 1, b, l =>
    if b.truncated then b
    else
      let r := next l
      if r.1 = 0 then b
      else convLoop next enc fuel (b.puts (enc r.1)) r.2

/-- `to_utf8(char* out, int32 max_count, wstr_iter&)`, core/src/str_convert.cpp:66-129
(the `USE_OS_UTF_CONVERSION` branch is disabled in the source). -/
def toUtf8 (cap : Option Nat) (l : List Nat) : Builder :=
  convLoop next16 enc8 (l.length + 1) ⟨cap, []⟩ l

/-- `to_utf16(wchar_t* out, int32 max_count, str_iter&)`, core/src/str_convert.cpp:170-213. -/
def toUtf16 (cap : Option Nat) (l : List Nat) : Builder :=
  convLoop next8 enc16 (l.length + 1) ⟨cap, []⟩ l

/-- What is in the caller's buffer afterwards: the units and the NUL stored by the
destructor, core/src/str_convert.cpp:17 (`if (start && start <= end) *write = 0`). -/
def Builder.memory (b : Builder) : List Nat :=
  match b.cap with
  | none => []
  | some n => if 1 ≤ n then b.out ++ [0] else b.out

/-- The idiom `while (int c = iter.next())` over a UTF-8 iterator (e.g.
core/src/str_convert.cpp:209): code points up to the first 0. -/
def cps8 (l : List Nat) : List Nat :=
  if h : more l = true then
    have := next8_shorter l h
    if (next8 l).1 = 0 then [] else (next8 l).1 :: cps8 (next8 l).2
  else []
termination_by l.length

/-- The same idiom over a UTF-16 iterator (core/src/str_convert.cpp:101). -/
def cps16 (l : List Nat) : List Nat :=
  if h : more l = true then
    have := next16_shorter l h
    if (next16 l).1 = 0 then [] else (next16 l).1 :: cps16 (next16 l).2
  else []
termination_by l.length

/-- The idiom `while (iter.more()) { iter.next(); … iter.get_pointer() … }`: the pieces
of input consumed by the successive steps (e.g. core/src/os.cpp:838-840). -/
def pieces8 (l : List Nat) : List (Nat × List Nat) :=
  if h : more l = true then
    have := next8_shorter l h
    ((next8 l).1, l.take (l.length - (next8 l).2.length)) :: pieces8 (next8 l).2
  else []
termination_by l.length

/-- As `pieces8` for UTF-16. -/
def pieces16 (l : List Nat) : List (Nat × List Nat) :=
  if h : more l = true then
    have := next16_shorter l h
    ((next16 l).1, l.take (l.length - (next16 l).2.length)) :: pieces16 (next16 l).2
  else []
termination_by l.length

end Clink.Utf
