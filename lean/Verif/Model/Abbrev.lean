import Verif.Model.Path
import Verif.Model.StrCompare
/-
Model of the expansion of abbreviated directory names, `os::disambiguate_abbreviated_path`
(clink/core/src/os.cpp:1633-1878), and of `os.expandabbreviatedpath` (clink/lua/src/os_api.cpp:2843-2861),
which hands its results to scripts.

Strings are lists of units without the terminating NUL; `str<280>` and `str_moveable` grow as
needed.  The file system, the kind of a drive and `_wcsicmp` are parameters.
-/
namespace Clink.Abbrev
open Clink Clink.Path

/-- What `FindFirstFileW` and `FindNextFileW` say about one file. -/
structure Entry where
  name : List Nat
  dir : Bool
deriving Repr, DecidableEq

/-- The system.  `find p` is everything that `FindFirstFileW(p)` and then `FindNextFileW` give; it is
empty if there is nothing.  One call of the function never searches for the same text twice, so this
does not say that the disk stays as it is.  `usable d` is false if `os::get_drive_type(d)` is
`drive_type_invalid` or `drive_type_remote`.  `ieq` is `_wcsicmp(..) == 0`, `lower` is `CharLowerW`, and
`mode` is what the current `str_compare_scope` asks for. -/
structure Env where
  find : List Nat → List Entry
  usable : List Nat → Bool
  ieq : List Nat → List Nat → Bool
  lower : Nat → Nat
  mode : StrCompare.Mode

/-- `to_utf16`, core/src/str_convert.cpp:170-213, into a growing string. -/
def wide (s : List Nat) : List Nat := (Utf.toUtf16 none s).out
/-- `to_utf8`, core/src/str_convert.cpp:66-129, into a growing string. -/
def narrow (s : List Nat) : List Nat := (Utf.toUtf8 none s).out

/-- `concat_strip_quotes`, core/include/core/str.h:753-780: copies up to a quote, then skips quotes. -/
def stripQuotes (l : List Nat) : List Nat :=
  if h : l = [] then []
  else l.takeWhile (· != 34) ++ stripQuotes ((l.dropWhile (· != 34)).dropWhile (· == 34))
termination_by l.length
decreasing_by
  have h1 := (List.dropWhile_suffix (l := l) (· != 34)).length_le
  have h2 := (List.dropWhile_suffix (l := l.dropWhile (· != 34)) (· == 34)).length_le
  cases l with
  | nil => exact absurd rfl h
  | cons c r =>
    by_cases hc : c = 34
    · subst hc
      have h3 := (List.dropWhile_suffix (l := r) (· == 34)).length_le
      simp only [List.dropWhile_cons, bne_self_eq_false, Bool.false_eq_true, if_false, beq_self_eq_true, if_true,
        List.length_cons]
      omega
    · have h3 := (List.dropWhile_suffix (l := r) (· != 34)).length_le
      have h4 := (List.dropWhile_suffix (l := r.dropWhile (· != 34)) (· == 34)).length_le
      simp only [List.dropWhile_cons, bne_iff_ne, ne_eq, hc, not_false_eq_true, if_true, List.length_cons]
      omega

/-- The search for the last separator, core/src/os.cpp:1643-1651. -/
def lastSep (tmp : List Nat) : Nat → Option Nat
  | 0 => none
  | n + 1 => if StrCompare.isSep (tmp.getD n 0) then some n else lastSep tmp n

/-- `_strnicmp(path, "UNC", 3) == 0 && is_separator(path[3])`, core/src/path.cpp:748. -/
def uncAt (m : List Nat) (q : Nat) : Option Bool := do
  let c ← rd m q
  if c ≠ 85 ∧ c ≠ 117 then return false
  let c ← rd m (q + 1)
  if c ≠ 78 ∧ c ≠ 110 then return false
  let c ← rd m (q + 2)
  if c ≠ 67 ∧ c ≠ 99 then return false
  return StrCompare.isSep (← rd m (q + 3))

/-- `isspace`, for the "C" locale. -/
def isSpace (c : Nat) : Bool := c == 32 || (9 ≤ c && c ≤ 13)

/-- The server and the share of `is_incomplete_unc`, core/src/path.cpp:753-777. -/
def incompleteFrom (m : List Nat) (q : Nat) : Option Bool := do
  let q ← skipSep m q
  if isSpace (← rd m q) then return true
  let q ← skipNonsep m q
  if !StrCompare.isSep (← rd m q) then return true
  let q ← skipSep m q
  if isSpace (← rd m q) then return true
  let q ← skipNonsep m q
  return !StrCompare.isSep (← rd m q)

/-- `is_incomplete_unc`, core/src/path.cpp:735-778. -/
def isIncompleteUnc (m : List Nat) : Option Bool := do
  if !StrCompare.isSep (← rd m 0) then return false
  if !StrCompare.isSep (← rd m 1) then return false
  if (← rd m 2) = 63 then
    if !StrCompare.isSep (← rd m 3) then return false
    let q ← skipSep m 4
    if ← uncAt m q then incompleteFrom m (q + 4) else return false
  else incompleteFrom m 0

/-- `unsigned(tolower(c) - 'a') <= 'z' - 'a'`, core/src/path.cpp:313. -/
def isLetter (c : Nat) : Bool := (65 ≤ c && c ≤ 90) || (97 ≤ c && c ≤ 122)

/-- `path::get_drive(in, out)`, core/src/path.cpp:305-322, with `in` at `p`. -/
def getDrive (m : List Nat) (p : Nat) : Option (Option (List Nat)) := do
  let q := p + (← pastSsqs m p)
  let c ← rd m q
  if c = 0 then return none
  if (← rd m (q + 1)) ≠ 58 then return none
  return if isLetter c then some [c, 58] else none

/-- `str_compare<wchar_t, true>(l, r)` and then `l.truncate(..)`, core/src/os.cpp:1799-1801 and 1817-1819. -/
def truncLcd (e : Env) (l r : List Nat) : List Nat :=
  let n := (StrCompare.strCompare e.lower Utf.iter16 e.mode true l r).1
  if n ≥ 0 then l.take n.toNat else l

/-- Skipping `.` and `..`, core/src/os.cpp:1743-1760: the current file and the following ones; `none` is the
jump to `close_bail`.  `pat` is `disambiguated`, which at this point ends with the star. -/
def skipDots (pat : List Nat) (l : List Entry) : Option (List Entry) :=
  match l with
  | [] => none
  | f :: r =>
    if f.name = [46] then
      let l := if pat ≠ [46] then r else f :: r
      if l = [] then none
      else
        let l := if pat ≠ [46, 46] then l.drop 1 else l
        if l = [] then none else some l
    else some (f :: r)

/-- Going on to the next directory, core/src/os.cpp:1762-1766 and 1790-1794: `none` if there is none. -/
def nextDir : List Entry → Option (List Entry)
  | [] => none
  | f :: r => if f.dir then some (f :: r) else nextDir r

/-- The first file whose name begins exactly as typed, core/src/os.cpp:1803-1812. -/
def firstBest (dir : List Nat) : List Entry → Option (List Nat)
  | [] => none
  | f :: r => if dir.isPrefixOf f.name then some f.name else firstBest dir r

/-- One directory component, core/src/os.cpp:1733-1828: what is to be appended, and whether it is an
exact or unique match; `none` if the whole function gives up.  `dis` is `disambiguated` and `wnext` the
component with its separators. -/
def component (e : Env) (dis wnext : List Nat) : Option (List Nat × Bool) :=
  let pat := dis ++ wnext ++ [42]
  match skipDots pat (e.find pat) with
  | none => none
  | some l =>
    match nextDir l with
    | none => none
    | some [] => none
    | some (f :: r) =>
      let dir := wnext.dropWhile StrCompare.isSep
      let res : List Nat × Bool :=
        if e.ieq f.name dir then (f.name, true)
        else
          let best := if dir.isPrefixOf f.name then some f.name else none
          match nextDir r with
          | none =>
            match best with
            | some b => (truncLcd e b f.name, true)
            | none => (f.name, true)
          | some l2 =>
            let wadd := match l2 with
              | [] => f.name
              | g :: _ => truncLcd e f.name g.name
            let best := match best with
              | some b => some b
              | none => firstBest dir l2
            match best with
            | some b => (truncLcd e b wadd, false)
            | none => (wadd, false)
      some (if res.1 = [] then dir else res.1, res.2)

/-- The next component of what is left, core/src/os.cpp:1699-1716, e.g. `\dir`. -/
def nextPart (rem : List Nat) : List Nat × List Nat :=
  let seps := rem.takeWhile StrCompare.isSep
  let r := rem.dropWhile StrCompare.isSep
  (seps ++ r.takeWhile (fun c => !StrCompare.isSep c), r.dropWhile (fun c => !StrCompare.isSep c))

theorem nextPart_lt {rem : List Nat} (h : rem ≠ []) : (nextPart rem).2.length < rem.length := by
  unfold nextPart
  cases rem with
  | nil => exact absurd rfl h
  | cons c r =>
    have h1 := (List.dropWhile_suffix (l := r) StrCompare.isSep).length_le
    have h2 := (List.dropWhile_suffix (l := r.dropWhile StrCompare.isSep) (fun c => !StrCompare.isSep c)).length_le
    have h3 := (List.dropWhile_suffix (l := r) (fun c => !StrCompare.isSep c)).length_le
    cases hc : StrCompare.isSep c <;> simp [hc] <;> omega

/-- The loop, core/src/os.cpp:1696-1854.  `rem` is the part of `tmp` from `parse.length()` up to `parse_len`; the
result has what is left of it at the end, `disambiguated` and `unique`. -/
def loop (e : Env) (rem dis : List Nat) (unique : Bool) : Option (List Nat × List Nat × Bool) :=
  if h : rem = [] then some ([], dis, unique)
  else
    have := nextPart_lt h
    let wnext := wide (nextPart rem).1
    if StrCompare.isSep (wnext.getLastD 0) then some ((nextPart rem).2, dis ++ [wnext.getLastD 0], unique)
    else
      match component e dis wnext with
      | none => none
      | some (wadd, u) =>
        let dis := dis ++ (if StrCompare.isSep (wnext.headD 0) then [wnext.headD 0] else []) ++ wadd
        if u then loop e (nextPart rem).2 dis true else some ((nextPart rem).2, dis, false)
termination_by rem.length

/-- What the caller gets: `out`, the text that `in` points at, and the returned value. -/
structure Result where
  out : List Nat
  rest : List Nat
  unique : Bool
deriving Repr, DecidableEq

/-- The end of the function, core/src/os.cpp:1856-1877.  `memcmp` is taken to look no further than the first
difference. -/
def finish (inp tmp : List Nat) (n : Nat) (r : List Nat × List Nat × Bool) : Result :=
  let out := narrow r.2.1
  if r.2.2 = true ∧ out.isPrefixOf tmp = true then ⟨[], inp, false⟩
  else
    let rest := inp.drop (n - r.1.length)
    let rest := if out ≠ [] ∧ StrCompare.isSep (out.getLastD 0) then rest.dropWhile StrCompare.isSep else rest
    ⟨out, rest, r.2.2⟩

/-- `disambiguate_abbreviated_path`, core/src/os.cpp:1633-1878. -/
def disambiguate (e : Env) (inp : List Nat) : Option Result :=
  let tmp := stripQuotes inp
  let no : Result := ⟨[], inp, false⟩
  match lastSep tmp tmp.length with
  | none => some no
  | some 0 => some no
  | some n => do
    let m := Path.cstr tmp
    if (← isUnc m 0).isSome then return no
    if ← isIncompleteUnc m then return no
    let ssqs ← pastSsqs m 0
    let d ← getDrive m ssqs
    if (d.any fun d => !e.usable d) then return no
    let start := tmp.take ssqs ++ d.getD []
    if start.length ≥ n then return no
    match loop e ((tmp.take n).drop start.length) (wide start) false with
    | none => return no
    | some r => return finish inp tmp n r

/-- `os.expandabbreviatedpath`, lua/src/os_api.cpp:2843-2861: `none` in the inner option is `nil`. -/
def expandAbbreviatedPath (e : Env) (inp : List Nat) : Option (Option (List Nat × List Nat × Bool)) :=
  (disambiguate e inp).map fun r => if r.out = [] then none else some (r.out, r.rest, r.unique)

end Clink.Abbrev
