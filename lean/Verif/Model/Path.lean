import Verif.Model.StrCompare

/-!
Model of clink/core/src/path.cpp and clink/core/include/core/path.h (Windows build).

Memory is a list of bytes and a pointer is an index into it, so that in-place editing is
visible.  A read or write outside the memory is undefined behaviour and gives `none`.
`alpha` stands for `iswalpha`/`isalpha` on the byte (both are used; see `append`).
`char` is treated as unsigned; only comparisons with ASCII characters depend on it.
-/

namespace Clink.Path

open StrCompare (isSep)

/-- `*p`. -/
def rd (m : List Nat) (p : Nat) : Option Nat := m[p]?

/-- `*p = v`. -/
def wr (m : List Nat) (p v : Nat) : Option (List Nat) :=
  if p < m.length then some (m.set p v) else none

theorem rd_lt {m : List Nat} {p c : Nat} (h : rd m p = some c) : p < m.length := by
  unfold rd at h
  exact (List.getElem?_eq_some_iff.1 h).1

/-- `skip_sep`, core/src/path.cpp:35-39 and core/include/core/path.h:49-53. -/
def skipSep (m : List Nat) (p : Nat) : Option Nat :=
  match h : rd m p with
  | none => none
  | some c => if isSep c then skipSep m (p + 1) else some p
termination_by m.length - p
decreasing_by have := rd_lt h; omega

/-- `skip_nonsep`, core/src/path.cpp:42-46. -/
def skipNonsep (m : List Nat) (p : Nat) : Option Nat :=
  match h : rd m p with
  | none => none
  | some c => if c ≠ 0 ∧ isSep c = false then skipNonsep m (p + 1) else some p
termination_by m.length - p
decreasing_by have := rd_lt h; omega

/-- `past_ssqs`, core/include/core/path.h:55-68. -/
def pastSsqs (m : List Nat) (p : Nat) : Option Nat := do
  if !isSep (← rd m p) then return 0
  if !isSep (← rd m (p + 1)) then return 0
  if (← rd m (p + 2)) ≠ 63 then return 0
  if !isSep (← rd m (p + 3)) then return 0
  let q ← skipSep m (p + 4)
  return q - p

/-- The server and share are skipped, core/src/path.cpp:707-719. -/
def shareEnd (m : List Nat) (q : Nat) : Option (Option Nat) := do
  let q ← skipNonsep m q
  let q ← skipSep m q
  return some (← skipNonsep m q)

/-- The part of `is_unc` after `\\?\`, core/src/path.cpp:686-701. -/
def uncWord (m : List Nat) (q : Nat) : Option (Option Nat) := do
  let c ← rd m q
  if c ≠ 85 ∧ c ≠ 117 then return none
  let c ← rd m (q + 1)
  if c ≠ 78 ∧ c ≠ 110 then return none
  let c ← rd m (q + 2)
  if c ≠ 67 ∧ c ≠ 99 then return none
  let c ← rd m (q + 3)
  if !isSep c then return none
  let q ← skipSep m (q + 3)
  shareEnd m q

/-- The device namespace check, core/src/path.cpp:680. -/
def deviceAt (m : List Nat) (q c0 : Nat) : Option Bool :=
  if c0 = 46 then (rd m (q + 1)).map fun c1 => c1 == 0 || isSep c1 else some false

/-- The `\\?\` check, core/src/path.cpp:684. -/
def ssqsAt (m : List Nat) (q leading c0 : Nat) : Option Bool :=
  if leading = 2 ∧ c0 = 63 then (rd m (q + 1)).map isSep else some false

/-- `is_unc`, core/src/path.cpp:669-720.  `none` in the inner option is the result `false`; otherwise
it is `past_unc`. -/
def isUnc (m : List Nat) (p : Nat) : Option (Option Nat) := do
  if !isSep (← rd m p) then return none
  if !isSep (← rd m (p + 1)) then return none
  let q ← skipSep m p
  let c0 ← rd m q
  if ← deviceAt m q c0 then return none
  if ← ssqsAt m q (q - p) c0 then
    let q ← skipSep m (q + 1)
    uncWord m q
  else shareEnd m q

/-- `past_drive`, core/src/path.cpp:49-58. -/
def pastDrive (alpha : Nat → Bool) (m : List Nat) (p : Nat) : Option Nat := do
  match ← isUnc m p with
  | some q => return q
  | none =>
    let q := p + (← pastSsqs m p)
    if alpha (← rd m q) then
      if (← rd m (q + 1)) = 58 then return q + 2
    return q

/-- `next_element`, core/src/path.cpp:264-272. -/
def nextElement (m : List Nat) (p : Nat) : Option (Option Nat) := do
  if (← rd m p) = 0 then return none
  let q ← skipSep m p
  let q ← skipNonsep m q
  return some (if (← rd m q) = 0 then q else q + 1)

/-- `in_out` after the loop that copies the drive or UNC prefix, core/src/path.cpp:156-166, and the
memory.  `write` is the inner variable, which is dropped afterwards. -/
def copyPrefix (past : Nat) (m : List Nat) (p write : Nat) : Option (List Nat × Nat) :=
  if h : p < past then do
    let c ← rd m p
    let m ← wr m write c
    if isSep c then
      let q ← skipSep m p
      if p < q then copyPrefix past m q (write + 1) else none
    else copyPrefix past m (p + 1) (write + 1)
  else some (m, p)
termination_by past - p

/-- The loop stepping back over a component, core/src/path.cpp:207-212. -/
def popElement (m : List Nat) (start write : Nat) : Option Nat :=
  if h : start < write then
    -- `write[-1]` after the decrement
    if write = 1 then none
    else do
      if isSep (← rd m (write - 2)) then some (write - 1) else popElement m start (write - 1)
  else some write
termination_by write

/-- Copying one element, core/src/path.cpp:229-230. -/
def copyElement (sep next : Nat) (m : List Nat) (read write : Nat) : Option (List Nat × Nat) :=
  if h : read < next then do
    let c ← rd m read
    let m ← wr m write (if isSep c then sep else c)
    copyElement sep next m (read + 1) (write + 1)
  else some (m, write)
termination_by next - read

/-- `++piece_count` and `--piece_count` on a `uint32`, core/src/path.cpp:224 and 214. -/
def uInc (n : Nat) : Nat := (n + 1) % 4294967296
def uDec (n : Nat) : Nat := (n + 4294967295) % 4294967296

/-- What does not change during the main loop. -/
structure Env where
  sep : Nat
  dots : Bool
  eat : Bool
  unc : Bool
  start : Nat

/-- The element at `read` is written, core/src/path.cpp:226-230; `count` is passed through. -/
def putElement (e : Env) (next : Nat) (m : List Nat) (read write count : Nat) :
    Option (List Nat × Nat × Nat) := do
  let (m, write) ←
    if e.unc && write == e.start then do pure (← wr m write e.sep, write + 1) else pure (m, write)
  let (m, write) ← copyElement e.sep next m read write
  return (m, write, count)

/-- One round of the main loop, core/src/path.cpp:193-230, at `read` whose next element is `next`:
memory, `write` and `piece_count` (a `uint32`). -/
def element (e : Env) (next : Nat) (m : List Nat) (read write count : Nat) :
    Option (List Nat × Nat × Nat) := do
  let read ← skipSep m read
  let c0 ← rd m read
  if c0 = 46 ∧ e.dots then
    let c1 ← rd m (read + 1)
    let c ← rd m (if c1 = 46 then read + 2 else read + 1)
    if isSep c ∨ c = 0 then
      if c1 ≠ 46 then return (m, write, count)
      else if count ≠ 0 then
        let write ← popElement m e.start write
        return (m, write, uDec count)
      else if e.eat then return (m, write, count)
      else putElement e next m read write count
    else putElement e next m read write count
  else putElement e next m read write (uInc count)

/-- The main loop, core/src/path.cpp:191-233, including the terminator written at the end.  The test
`read < next` is always true (`nextElement_gt`) and is only there for termination. -/
def elements (e : Env) (m : List Nat) (read write count : Nat) : Option (List Nat) :=
  match nextElement m read with
  | none => none
  | some none => wr m write 0
  | some (some next) =>
    match element e next m read write count with
    | none => none
    | some (m', write, count) =>
      if _h : read < next ∧ next ≤ m.length ∧ m'.length = m.length then elements e m' next write count
      else none
termination_by m.length - read

/-- `is_separator(in_out[0]) && is_separator(in_out[1])`, core/src/path.cpp:148, 153, 154. -/
def twoAt (m : List Nat) (p : Nat) : Option Bool :=
  (rd m p).bind fun a => if isSep a then (rd m (p + 1)).map isSep else some false

/-- `&& in_out[2] == '.' && is_separator(in_out[3])`, core/src/path.cpp:148. -/
def devAt (m : List Nat) (p : Nat) (two : Bool) : Option Bool :=
  if two then (rd m (p + 2)).bind fun c => if c = 46 then (rd m (p + 3)).map isSep else some false
  else some false

/-- `&& in_out[2] == '?'`, core/src/path.cpp:153. -/
def quesAt (m : List Nat) (p : Nat) (two : Bool) : Option Bool :=
  if two then (rd m (p + 2)).map (· == 63) else some false

/-- The treatment of the prefix, core/src/path.cpp:144-167: memory, `in_out`, `eat_extra_dots`. -/
def prefixPart (alpha : Nat → Bool) (m : List Nat) (p : Nat) (two dev : Bool) : Option (List Nat × Nat × Bool) :=
  if dev then some (m, p, false)
  else (pastDrive alpha m p).bind fun past =>
    (quesAt m p two).bind fun ques =>
      let q := if p + 1 ≤ past ∧ two then p + 2 else p
      (copyPrefix past m q q).map fun (m, q') => (m, q', decide (p < past) && ques)

/-- `normalise`, core/src/path.cpp:138-234, for a nonzero `sep` (zero is replaced by `PATH_SEP[0]`).
`p` is the argument `in_out`.  Lines 181-188 are at the end. -/
def normalise (alpha : Nat → Bool) (sep : Nat) (m : List Nat) (p : Nat) : Option (List Nat) :=
  (isUnc m p).bind fun unc =>
  (twoAt m p).bind fun two =>
  (devAt m p two).bind fun dev =>
  (prefixPart alpha m p two dev).bind fun (m, p, eat) =>
  (rd m p).bind fun c =>
    if isSep c then
      (wr m p sep).bind fun m =>
        elements ⟨sep, !dev, eat, unc.isSome, p + 1 - (if unc.isSome then 1 else 0)⟩ m (p + 1) (p + 1) 2147483647
    else elements ⟨sep, !dev, eat, unc.isSome, p⟩ m p p 0

/-- `get_last_separator`, core/src/path.cpp:61-68: the text from `p` to its end is searched
backwards from `p + n`. -/
def lastSep (m : List Nat) (p : Nat) : Nat → Option (Option Nat)
  | 0 => some none
  | n + 1 => do if isSep (← rd m (p + n)) then return some (p + n) else lastSep m p n

/-- `strlen`. -/
def strlen (m : List Nat) (p : Nat) : Option Nat :=
  match h : rd m p with
  | none => none
  | some c => if c = 0 then some 0 else (strlen m (p + 1)).map (· + 1)
termination_by m.length - p
decreasing_by have := rd_lt h; omega

/-- The loop at core/src/path.cpp:99-107, with `first_slash = n - 1`. -/
def trimBack (m : List Nat) (p n : Nat) : Option Nat :=
  if h : p < n then do
    if isSep (← rd m (n - 1)) then trimBack m p (n - 1) else some n
  else some n
termination_by n

/-- `get_directory_end`, core/src/path.cpp:81-113, for the string at `0`. -/
def getDirectoryEnd (alpha : Nat → Bool) (m : List Nat) : Option Nat := do
  let p ← pastDrive alpha m 0
  let lead ← (do
    if p = 0 then return isSep (← rd m p)
    else if (← rd m (p - 1)) = 58 then return isSep (← rd m p) else return false)
  let p := if lead then p + 1 else p
  match ← lastSep m p (← strlen m p) with
  | none => return p
  | some slash =>
    let first ← trimBack m p (slash + 1)
    return if first ≠ p then first else slash

/-- The C string held by a `str` with contents `s`. -/
def cstr (s : List Nat) : List Nat := s ++ [0]

/-- `get_directory`, core/src/path.cpp:288-294. -/
def getDirectory (alpha : Nat → Bool) (s : List Nat) : Option (List Nat) :=
  (getDirectoryEnd alpha (cstr s)).map s.take

/-- `get_name`, core/src/path.cpp:386-399. -/
def getName (alpha : Nat → Bool) (s : List Nat) : Option (List Nat) := do
  let p ← pastDrive alpha (cstr s) 0
  match ← lastSep (cstr s) p (← strlen (cstr s) p) with
  | some q => return s.drop (q + 1)
  | none => return s.drop p

/-- `find_root` and `is_rooted`, core/src/path.cpp:466-488. -/
def isRooted (alpha : Nat → Bool) (s : List Nat) : Option Bool := do
  let p ← pastDrive alpha (cstr s) 0
  return isSep (← rd (cstr s) p)

/-- `is_root`, core/src/path.cpp:492-501. -/
def isRoot (alpha : Nat → Bool) (s : List Nat) : Option Bool := do
  let p ← pastDrive alpha (cstr s) 0
  let c ← rd (cstr s) p
  if c = 0 ∨ isSep c then
    let q ← skipSep (cstr s) p
    return (← rd (cstr s) q) == 0
  else return false

/-- The drive test in `append`, core/src/path.cpp:583-589.  `isalpha` here. -/
def bareDrive (alpha : Nat → Bool) (s : List Nat) : Option Bool := do
  match ← isUnc (cstr s) 0 with
  | some _ => return false
  | none =>
    let q ← pastSsqs (cstr s) 0
    if alpha (← rd (cstr s) q) then
      if (← rd (cstr s) (q + 1)) = 58 then return (← rd (cstr s) (q + 2)) == 0
    return false

/-- `append`, core/src/path.cpp:570-598 (`PATH_SEP` is a backslash).  The string buffer is assumed to
grow as needed. -/
def append (alpha : Nat → Bool) (out rhs : List Nat) : Option (List Nat) := do
  if ← isRooted alpha rhs then return rhs
  let add ← (do
    match out.getLast? with
    | none => return false
    | some c => return !isSep c && !(← bareDrive alpha out))
  let add ← (do if add then return !isSep (← rd (cstr rhs) 0) else return false)
  return out ++ (if add then [92] else []) ++ rhs

/-- Trailing characters satisfying `q` are dropped from `s.take n`, but not below `lo`. -/
def trimEnd (q : Nat → Bool) (s : List Nat) (lo : Nat) : Nat → Nat
  | 0 => 0
  | n + 1 => if lo < n + 1 ∧ q (s.getD n 0) then trimEnd q s lo n else n + 1

/-- `to_parent`, core/src/path.cpp:627-664: the new path and the child. -/
def toParent (alpha : Nat → Bool) (s : List Nat) : Option (List Nat × List Nat) := do
  let start ← pastDrive alpha (cstr s) 0
  let start ← (do
    if start ≠ 0 ∧ s.getD (start - 1) 0 = 58 then skipSep (cstr s) start else return start)
  let childEnd := trimEnd isSep s 0 s.length
  let en := trimEnd (fun c => !isSep c) s 0 childEnd
  let en := if en < start then start else en
  -- `concat` with a negative length takes everything
  let child := if childEnd < en then s.drop en else (s.drop en).take (childEnd - en)
  return (s.take (trimEnd isSep s start en), child)

/-- `maybe_strip_last_separator`, core/src/path.cpp:603-612. -/
def maybeStripLastSeparator (alpha : Nat → Bool) (s : List Nat) : Option (List Nat) := do
  let start ← pastDrive alpha (cstr s) 0
  let start := if isSep (← rd (cstr s) start) then start + 1 else start
  return s.take (trimEnd isSep s start s.length)

/-- `normalise_separators`, core/src/path.cpp:243-251. -/
def normaliseSeparators (sep : Nat) : List Nat → List Nat
  | [] => []
  | c :: l => (if isSep c ∧ c ≠ sep then sep else c) :: normaliseSeparators sep l

end Clink.Path
