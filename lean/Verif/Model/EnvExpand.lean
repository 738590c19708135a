import Verif.Model.Doskey
import Verif.Model.Settings

/-!
Model of the expansion of environment variables.
Sources: `expand_env` and `get_env` in clink/core/src/os.cpp, `do_expand_line` in clink/lib/src/rl/rl_commands.cpp.

Text is a list of bytes, read as in `Model.Doskey`; a position in the text is the number of bytes before it.  Strings hold
what is appended to them, and integers are unbounded.  Asserts are not modelled.
-/

namespace Clink.EnvExpand

open Utf (more)
open Doskey (peek next next_lt next_le between)

/-- The operating system.
* `var`: `GetEnvironmentVariableW`, with the conversions of the name and of the value; none if the variable is not set;
* `errorlevel`: what `%d` makes of `os::get_errorlevel()`;
* `cwd`: `os::get_current_dir`;
* `rand`: what `%d` makes of `rand()`, when it is called for the reference at that position;
* `cmdline`: `GetCommandLineW`. -/
structure Os where
  var : List Nat → Option (List Nat)
  errorlevel : List Nat
  cwd : List Nat
  rand : Nat → List Nat
  cmdline : List Nat

/-- `get_env`, core/src/os.cpp:893-949, called for the reference at position `k`.  The calls within it ask for variables
without a meaning of their own. -/
def getEnv (os : Os) (k : Nat) (name : List Nat) : Option (List Nat) :=
  match os.var name with
  | some v => some v
  | none =>
    if Settings.same name (Color.bs "HOME") then
      match os.var (Color.bs "HOMEDRIVE"), os.var (Color.bs "HOMEPATH") with
      | some a, some b => some (a ++ b)
      | _, _ => os.var (Color.bs "USERPROFILE")
    else if Settings.same name (Color.bs "ERRORLEVEL") then some os.errorlevel
    else if Settings.same name (Color.bs "CD") then some os.cwd
    else if Settings.same name (Color.bs "RANDOM") then some (os.rand k)
    else if Settings.same name (Color.bs "CMDCMDLINE") then some os.cmdline
    else none

/-- `while (iter.more() && iter.peek() != '%')`, core/src/os.cpp:838-839, 852-853. -/
def toPercent (l : List Nat) : List Nat :=
  if h : more l = true then if peek l = 37 then l else toPercent (next l) else l
termination_by l.length
decreasing_by exact next_lt h

theorem toPercent_le (l : List Nat) : (toPercent l).length ≤ l.length := by
  fun_induction toPercent l with
  | case1 => exact Nat.le_refl _
  | case2 l h h1 ih => exact Nat.le_trans ih (next_le _)
  | case3 => exact Nat.le_refl _

/-- Adjusting the cursor, core/src/os.cpp:872-879; the reference is at `offset` and ends at `stop`. -/
def movePoint (offset stop : Nat) (value : List Nat) (point : Int) : Int :=
  if point > offset then
    if point ≤ stop then offset + value.length else point + ((value.length : Int) - ((stop : Int) - offset))
  else point

/-- `out`, the returned value, and `*point` if there is one. -/
structure Res where
  out : List Nat := []
  expanded : Bool := false
  point : Option Int := none
  deriving DecidableEq, Repr

/-- The loop, core/src/os.cpp:835-887; `n` is the length of the whole text, and `env` is `get_env` for the reference at a
position. -/
def loop (env : Nat → List Nat → Option (List Nat)) (n : Nat) (l : List Nat) (r : Res) : Res :=
  if more l = true then
    let a := toPercent l
    let r := { r with out := r.out ++ between l a }
    if h : more a = true then
      let c := toPercent (next a)
      let name := between (next a) c
      if h2 : more c = true ∧ peek c = 37 ∧ name ≠ [] then
        match env (n - a.length) name with
        | some v =>
          loop env n (next c) { out := r.out ++ v, expanded := true, point := r.point.map (movePoint (n - a.length) (n - (next c).length) v) }
        | none => loop env n (next c) { r with out := r.out ++ a.take (a.length - c.length + 1) }
      else loop env n c { r with out := r.out ++ between a c }
    else r
  else r
termination_by l.length
decreasing_by
  all_goals
    have h1 := toPercent_le l
    have h3 := next_lt h
    have h4 := toPercent_le (next (toPercent l))
    have h5 := next_le (toPercent (next (toPercent l)))
    simp only [a, c] at *
    omega

/-- `expand_env`, core/src/os.cpp:828-890. -/
def expandEnv (env : Nat → List Nat → Option (List Nat)) (l : List Nat) (point : Option Int) : Res :=
  loop env l.length l { point }

/-- Where `do_expand_line` leaves the cursor, lib/src/rl/rl_commands.cpp:894-901: after the inserted text, or where it is
put. -/
def lineCursor (r : Res) : Nat :=
  match r.point with
  | some p => if 0 ≤ p ∧ p ≤ r.out.length then p.toNat else r.out.length
  | none => r.out.length

end Clink.EnvExpand
