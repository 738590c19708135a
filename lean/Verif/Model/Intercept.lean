import Verif.Model.Settings
import Verif.Model.StrCompare

/-!
Model of directory shortcuts and of the directory history.
Sources: clink/lib/src/intercept.cpp, `update_dir_history` and `prev_dir_history` in clink/app/src/host/host.cpp, `get_drive` in clink/core/src/path.cpp.

Text is a list of bytes without NUL; text that is formatted is not cut.  Case is ignored for ASCII letters.
-/

namespace Clink.Intercept

open Settings (same)
open StrCompare (isSep)

def blank (c : Nat) : Bool := c == 32 || c == 9

def skip (l : List Nat) : List Nat := l.dropWhile blank

/-- The commands that `parse_line_token` knows, intercept.cpp:103. -/
def commands : List (List Nat) := ["call", "cd", "chdir", "dir", "echo", "md", "mkdir", "popd", "pushd"].map Color.bs

/-- The loop of `parse_line_token`, intercept.cpp:25-114: the text, and whether variables are expanded. -/
def tokenGo (quoted expand first : Bool) (out : List Nat) : List Nat → Option (List Nat × Bool)
  | [] => some (out, expand)
  | c :: r =>
    if blank c && !quoted then
      if skip r = [] then some (out, expand) else none
    else if c = 60 ∨ c = 124 ∨ c = 62 then none
    else if c = 64 ∨ c = 40 ∨ c = 41 ∨ c = 38 ∨ c = 43 ∨ c = 61 ∨ c = 59 ∨ c = 44 then
      if !quoted then none else tokenGo quoted expand first (out ++ [c]) r
    else if c = 34 then tokenGo (!quoted) expand false out r
    else if c = 94 then
      if !quoted && !r.isEmpty then tokenGo quoted expand false out r else tokenGo quoted expand false (out ++ [c]) r
    else if c = 37 then tokenGo quoted true false (out ++ [c]) r
    else if c = 46 ∨ isSep c then
      if first && commands.any (same out) then none else tokenGo quoted expand false (out ++ [c]) r
    else tokenGo quoted expand first (out ++ [c]) r

/-- The operating system.
* `expand`: `os::expand_env` (the text itself if nothing was expanded);
* `alias`: whether `os::get_alias` finds one;
* `home`: what `path::tilde_expand` makes of a text that starts with `~` and its end or a separator;
* `dir`: whether `os::get_path_type` says that it is a directory;
* `remote`: `os::is_remote`;
* `noRemote`: whether `CLINK_NO_REMOTE_COLORING` is a positive number;
* `cwd`: `os::get_current_dir`. -/
structure Os where
  expand : List Nat → List Nat
  alias : List Nat → Bool
  home : List Nat → List Nat
  dir : List Nat → Bool
  remote : List Nat → Bool
  noRemote : Bool
  cwd : List Nat

/-- `parse_line_token`, intercept.cpp:17-115. -/
def lineToken (os : Os) (line : List Nat) : Option (List Nat) :=
  match tokenGo false false true [] (skip line) with
  | none => none
  | some (out, expand) =>
    let out := if expand then os.expand out else out
    if out = [] then none else some out

/-- `parse_cd_chdir_command`, intercept.cpp:118-161, after the blanks: the command and what follows. -/
def parseCd (line : List Nat) : Option (List Nat × List Nat) :=
  let cmd := if same (line.take 2) (Color.bs "cd") then some (Color.bs "cd") else if same (line.take 5) (Color.bs "chdir") then some (Color.bs "chdir") else none
  match cmd with
  | none => none
  | some cmd =>
    let scan := line.drop cmd.length
    let have_space := skip scan != scan
    let scan := skip scan
    let (have_space, scan) :=
      if same (scan.take 2) (Color.bs "/d") then
        let scan := scan.drop 2
        (skip scan != scan, skip scan)
      else (have_space, scan)
    if have_space then some (cmd, scan) else none

/-- The end of `is_cd_dash`, intercept.cpp:176-182. -/
def dash : List Nat → Bool
  | 45 :: r => skip r == []
  | _ => false

/-- `is_cd_dash`, intercept.cpp:164-183. -/
def isCdDash (os : Os) (line : List Nat) (only : Bool) : Bool :=
  let line := skip line
  match parseCd line with
  | some (cmd, scan) => if only && os.alias cmd then false else dash scan
  | none => if only then false else dash line

/-- `past_ssqs`, core/include/core/path.h:55-68: what follows. -/
def pastSsqs : List Nat → List Nat
  | a :: b :: 63 :: d :: r => if isSep a && isSep b && isSep d then r.dropWhile isSep else a :: b :: 63 :: d :: r
  | l => l

/-- `get_drive`, core/src/path.cpp:305-322. -/
def getDrive (l : List Nat) : Option (List Nat) :=
  match pastSsqs l with
  | c :: 58 :: _ => if (65 ≤ c ∧ c ≤ 90) ∨ (97 ≤ c ∧ c ≤ 122) then some [c, 58] else none
  | _ => none

/-- `make_cd_command`, intercept.cpp:282-302. -/
def makeCd (os : Os) (dir : List Nat) : List Nat :=
  match getDrive dir with
  | some drive =>
    if !same drive ((getDrive os.cwd).getD []) then Color.bs " " ++ drive ++ Color.bs " & cd \"" ++ dir ++ Color.bs "\""
    else Color.bs " cd \"" ++ dir ++ Color.bs "\""
  | none => Color.bs " cd \"" ++ dir ++ Color.bs "\""

inductive Mode
  | normal
  | no_remote
  | only_cd_chdir
  deriving DecidableEq, Repr

inductive Result
  | none
  | prev_dir
  | chdir
  deriving DecidableEq, Repr

/-- The number of dots if it is only dots and perhaps a separator, intercept.cpp:204-213; otherwise 0. -/
def numDots (l : List Nat) : Nat :=
  match l.dropWhile (· == 46) with
  | [] => l.length
  | [c] => if isSep c then l.length - 1 else 0
  | _ => 0

/-- The loop for `..\..`, intercept.cpp:232-245. -/
def upDirs : List Nat → Bool
  | [46, 46] => true
  | 46 :: 46 :: c :: r => isSep c && upDirs r
  | _ => false

/-- `path::tilde_expand`, core/src/path.cpp:451-464. -/
def tilde (os : Os) : List Nat → List Nat
  | [126] => os.home [126]
  | 126 :: c :: r => if isSep c then os.home (126 :: c :: r) else 126 :: c :: r
  | l => l

def sepEnd (l : List Nat) : Bool := (l.getLast?.map isSep).getD false

/-- `normalise_separators`, core/src/path.cpp:243-251. -/
def backslashes (l : List Nat) : List Nat := l.map fun c => if isSep c then 92 else c

/-- The test for a drive, intercept.cpp:258-260: any character with a colon. -/
def hasColon (l : List Nat) : Bool :=
  match pastSsqs l with
  | _ :: 58 :: _ => true
  | _ => false

/-- The part of `intercept_directory` behind the dots, intercept.cpp:226-279. -/
def enter (os : Os) (mode : Mode) (dots : Bool) (tmp : List Nat) : Result × Option (List Nat) :=
  let t : Option (List Nat) :=
    if tmp ≠ [126] ∧ !sepEnd tmp then (if upDirs tmp then some (tmp ++ [92]) else none) else some tmp
  match t with
  | none => (.none, none)
  | some tmp =>
    let tmp := tilde os tmp
    if !dots && mode == .no_remote && os.remote tmp && (hasColon tmp || os.noRemote) then (.none, none)
    else if !dots && !os.dir tmp then (.none, none)
    else (.chdir, some (makeCd os (backslashes tmp)))

/-- `intercept_directory`, intercept.cpp:186-280: the result, and the command if there is one. -/
def intercept (os : Os) (line : List Nat) (mode : Mode) : Result × Option (List Nat) :=
  if isCdDash os line (mode == .only_cd_chdir) then (.prev_dir, none)
  else if mode = .only_cd_chdir then (.none, none)
  else
    match lineToken os line with
    | none => (.none, none)
    | some tmp =>
      let n := numDots tmp
      if 2 ≤ n then enter os mode true (List.replicate (n - 1) (Color.bs "..\\")).flatten else enter os mode false tmp

/-! The directory history. -/

/-- `update_dir_history`, host.cpp:248-286; `erase` is whether `directories.dupe_mode` is `erase_prev`, and `max` is `c_max_dir_history`. -/
def update (max : Nat) (erase : Bool) (cwd : List Nat) (h : List (List Nat)) : List (List Nat) :=
  let h := if erase then h.filter fun d => !same d cwd else h
  let add :=
    match h.getLast? with
    | none => true
    | some b => !same b cwd
  let h := if add then h ++ [cwd] else h
  h.drop (h.length - max)

/-- `prev_dir_history`, host.cpp:289-300: the directory. -/
def prevDir (h : List (List Nat)) : Option (List Nat) := if h.length < 2 then none else h.reverse[1]?

end Clink.Intercept
