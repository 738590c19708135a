import Verif.Model.Tokeniser

/-! Model of descriptions of colours and SGR codes (clink/core/src/settings.cpp:820-1250).

Strings are lists of bytes without the terminator.  `int32` is `Int`; overflow is undefined behaviour, `none`. -/

namespace Clink.Color

def bs (s : String) : List Nat := s.toList.map Char.toNat

/-- Case is ignored for ASCII letters (`_strnicmp` and `strcmpi` in the "C" locale). -/
def lower (c : Nat) : Nat := if 65 ≤ c ∧ c ≤ 90 then c + 32 else c

/-- `_strnicmp(a, b, 3) == 0` for `b` of at least three characters, core/src/settings.cpp:820-823. -/
def imatch3 (a b : List Nat) : Bool := (a.take 3).map lower == b.take 3

/-- `strcmpi(a, b) == 0` for `b` in lower case. -/
def iequal (a b : List Nat) : Bool := a.map lower == b

/-- `parsehexdigit`, core/src/settings.cpp:826-835. -/
def hexDigit (c : Nat) : Option Nat :=
  if 48 ≤ c ∧ c ≤ 57 then some (c - 48)
  else if 97 ≤ c ∧ c ≤ 102 then some (10 + (c - 97))
  else if 65 ≤ c ∧ c ≤ 70 then some (10 + (c - 65))
  else none

/-- The loop in `parsehex`, core/src/settings.cpp:849-861. -/
def hexLoop (double : Bool) (value : Nat) : List Nat → Option Nat
  | [] => some value
  | c :: l =>
    match hexDigit c with
    | none => none
    | some h =>
      let value := value * 16 + h
      hexLoop double (if double then value * 16 + h else value) l

/-- `parsehex`, core/src/settings.cpp:838-864; `none` is -1. -/
def parseHex (a : List Nat) : Option Nat :=
  match a with
  | 35 :: l => if l.length ≠ 3 ∧ l.length ≠ 6 then none else hexLoop (l.length == 3) 0 l
  | _ => none

/-- `color_names`, core/src/settings.cpp:867. -/
def names : List (List Nat) := [bs "black", bs "red", bs "green", bs "yellow", bs "blue", bs "magenta", bs "cyan", bs "white"]

/-- The variables of `parse_color`, core/src/settings.cpp:880-891.  `onBg`: `pcolor` and `phex` point to `bg` and `bg_hex`. -/
structure St where
  fg : Int := -1
  bg : Int := -1
  fgHex : Bool := false
  bgHex : Bool := false
  bold : Int := -1
  bright : Int := -1
  underline : Int := -1
  italic : Bool := false
  reverse : Bool := false
  onBg : Bool := false
  sawDefault : Bool := false
  deriving DecidableEq, Repr

/-- `*pcolor` and `*phex`. -/
def St.color (s : St) : Int := if s.onBg then s.bg else s.fg
def St.hex (s : St) : Bool := if s.onBg then s.bgHex else s.fgHex
def St.setColor (s : St) (c : Int) : St := if s.onBg then { s with bg := c } else { s with fg := c }
def St.setHex (s : St) (h : Bool) : St := if s.onBg then { s with bgHex := h } else { s with fgHex := h }

/-- The loop in `parse_color`, core/src/settings.cpp:914-997: one token. -/
def step (s : St) (token : List Nat) : Option St :=
  if iequal token (bs "on") then
    if s.onBg then none
    else
      some { s with fg := if !s.hex && decide (0 < s.bright) then s.fg + 8 else s.fg, onBg := true, bright := -1, sawDefault := false }
  else if imatch3 token (bs "normal") || imatch3 token (bs "default") then
    if 0 ≤ s.color then none
    else if s.sawDefault then none
    else some { (s.setColor (-1)).setHex false with sawDefault := true }
  else if imatch3 token (bs "bold") || imatch3 token (bs "nobold") || imatch3 token (bs "dim") then
    if s.onBg then none
    else if 0 ≤ s.bold then none
    else some { s with bold := if imatch3 token (bs "bold") then 1 else 0 }
  else if imatch3 token (bs "bright") then
    if s.hex then none
    else if 0 ≤ s.bright then none
    else some { s with bright := 1 }
  else if imatch3 token (bs "underline") || imatch3 token (bs "nounderline") then
    if s.onBg then none
    else if 0 ≤ s.underline then none
    else some { s with underline := if imatch3 token (bs "underline") then 1 else 0 }
  else if imatch3 token (bs "italic") then
    if s.onBg then none
    else if s.italic then none
    else some { s with italic := true }
  else if imatch3 token (bs "reverse") then
    if s.reverse then none
    else some { s with reverse := true }
  else
    match parseHex token with
    | some h =>
      if 0 ≤ s.color then none
      else if 0 ≤ s.bright then none
      else some ((s.setColor h).setHex true)
    | none =>
      match names.findIdx? (imatch3 token) with
      | some i => if 0 ≤ s.color then none else some (s.setColor i)
      | none => none

/-- The loop, without the special case for the first token. -/
def steps (s : St) : List (List Nat) → Option St
  | [] => some s
  | t :: ts => (step s t).bind fun s => steps s ts

/-- `itoa(x, buf, 10)`. -/
def digits (n : Nat) : List Nat := if n < 10 then [48 + n] else digits (n / 10) ++ [48 + n % 10]

/-- Colours in `parse_color`, core/src/settings.cpp:1019-1042 and 1044-1067; `base` is 30 or 40. -/
def colorCode (base : Nat) (hex : Bool) (c : Int) : List Nat :=
  if c < 0 then []
  else
    let n := c.toNat
    if hex then
      59 :: digits (base + 8) ++ bs ";2;" ++ digits (n / 65536) ++ 59 :: digits (n / 256 % 256) ++ 59 :: digits (n % 256)
    else 59 :: digits ((if 8 ≤ n then n + 52 else n) + base)

/-- `parse_color`, core/src/settings.cpp:1000-1069: the code. -/
def St.code (s : St) : List Nat :=
  let s := if 0 ≤ s.color ∧ s.hex = false ∧ 0 < s.bright then s.setColor (s.color + 8) else s
  bs "0" ++ (if s.reverse then bs ";7" else []) ++ (if 0 < s.bold then bs ";1" else if s.bold = 0 then bs ";22" else []) ++
    (if s.italic then bs ";3" else []) ++ (if 0 < s.underline then bs ";4" else []) ++ colorCode 30 s.fgHex s.fg ++ colorCode 40 s.bgHex s.bg

/-- `parse_color`, core/src/settings.cpp:870-1071; `none` is `false`. -/
def parse (value : List Nat) : Option (List Nat) :=
  if value = [] then some []
  else
    let toks := Tok.tokens Utf.iter8 [32] value
    match toks with
    | [] => some (St.code {})
    | t :: ts =>
      if iequal t (bs "ansi") || iequal t (bs "sgr") then
        match ts with
        | [] => some []
        | [code] => some code
        | _ => none
      else (steps {} toks).map St.code

/-- The loop in `int_from_str_iter`, core/src/settings.cpp:1078-1084. -/
def intLoop (x : Nat) : List Nat → Option Int
  | [] => some x
  | c :: l =>
    if c < 48 ∨ 57 < c then some (-1)
    else if 2147483648 ≤ x * 10 + (c - 48) then none
    else intLoop (x * 10 + (c - 48)) l

/-- `int_from_str_iter`, core/src/settings.cpp:1074-1086. -/
def int (part : List Nat) : Option Int := intLoop 0 part

/-- `%02.2X`. -/
def hexChar (n : Nat) : Nat := if n < 10 then 48 + n else 55 + n
def hex2 (n : Nat) : List Nat := [hexChar (n / 16), hexChar (n % 16)]

/-- `parse24bit`, core/src/settings.cpp:1089-1108: `some none` is `false`; otherwise the text in `buf` and the parts that are
left. -/
def parse24 (parts : List (List Nat)) : Option (Option (List Nat × List (List Nat))) :=
  match parts with
  | [] => some none
  | two :: parts =>
    (int two).bind fun two => if two ≠ 2 then some none else
    match parts with
    | [] => some none
    | r :: parts =>
      (int r).bind fun r => if r < 0 ∨ 255 < r then some none else
      match parts with
      | [] => some none
      | g :: parts =>
        (int g).bind fun g => if g < 0 ∨ 255 < g then some none else
        match parts with
        | [] => some none
        | b :: parts =>
          (int b).bind fun b => if b < 0 ∨ 255 < b then some none else
            some (some (35 :: hex2 r.toNat ++ hex2 g.toNat ++ hex2 b.toNat, parts))

theorem parse24_lt {parts rest : List (List Nat)} {buf : List Nat} (h : parse24 parts = some (some (buf, rest))) : rest.length < parts.length := by
  unfold parse24 at h
  split at h
  · cases h
  · obtain ⟨x, -, h⟩ := Option.bind_eq_some_iff.1 h
    split at h
    · cases h
    · split at h
      · cases h
      · obtain ⟨x, -, h⟩ := Option.bind_eq_some_iff.1 h
        split at h
        · cases h
        · split at h
          · cases h
          · obtain ⟨x, -, h⟩ := Option.bind_eq_some_iff.1 h
            split at h
            · cases h
            · split at h
              · cases h
              · obtain ⟨x, -, h⟩ := Option.bind_eq_some_iff.1 h
                split at h
                · cases h
                · cases h
                  simp only [List.length_cons]
                  omega

/-- The name of a colour with the number `x`, core/src/settings.cpp:1183-1188 and 1215-1220. -/
def colorName (x : Nat) : List Nat := (if 90 ≤ x then bs "bright " else []) ++ names.getD ((if 90 ≤ x then x - 60 else x) - 30) [] ++ bs " "

/-- The loop of `format_color`, core/src/settings.cpp:1134-1241: `some none` is the jump to `nope`.  The tokens of the
enumeration are numbered from 0 (`reset_token`) to 7 (`nomore_tokens`). -/
def formatLoop (compat : Bool) (expected : Nat) (anyFg : Bool) (out : List Nat) (parts : List (List Nat)) : Option (Option (List Nat)) :=
  match parts with
  | [] => some (some out)
  | p :: parts =>
    match int p with
    | none => none
    | some x =>
      if x < 0 then some none
      else
        let x := x.toNat
        if 7 ≤ expected then some none
        else if expected = 0 ∧ x ≠ 0 then some none
        else if x = 0 then if 0 < expected then some none else formatLoop compat 1 anyFg out parts
        else if x = 7 then if 1 < expected then some none else formatLoop compat 2 anyFg (out ++ bs "reverse ") parts
        else if x = 1 ∨ x = 22 then
          if 2 < expected then some none else formatLoop compat 3 anyFg (out ++ if x = 1 then bs "bold " else bs "nobold ") parts
        else if x = 3 then if 3 < expected then some none else formatLoop compat 4 anyFg (out ++ bs "italic ") parts
        else if x = 4 then if 4 < expected then some none else formatLoop compat 5 anyFg (out ++ bs "underline ") parts
        else if (30 ≤ x ∧ x < 38) ∨ (90 ≤ x ∧ x < 98) then
          if 5 < expected then some none else formatLoop compat 6 true (out ++ colorName x) parts
        else if x = 38 ∧ compat = false then
          if 5 < expected then some none
          else
            match h : parse24 parts with
            | none => none
            | some none => some none
            | some (some (buf, rest)) =>
              have := parse24_lt h
              formatLoop compat 6 true (out ++ buf ++ bs " ") rest
        else if x = 39 then if 5 < expected then some none else formatLoop compat 6 true (out ++ bs "default ") parts
        else if (40 ≤ x ∧ x < 48) ∨ (100 ≤ x ∧ x < 108) then
          if 6 < expected then some none
          else formatLoop compat 7 anyFg (out ++ (if anyFg then [] else bs "default ") ++ bs "on " ++ colorName (x - 10)) parts
        else if x = 48 ∧ compat = false then
          if 6 < expected then some none
          else
            match h : parse24 parts with
            | none => none
            | some none => some none
            | some (some (buf, rest)) =>
              have := parse24_lt h
              formatLoop compat 7 anyFg (out ++ (if anyFg then [] else bs "default ") ++ bs "on " ++ buf ++ bs " ") rest
        else if x = 49 then if 6 < expected then some none else formatLoop compat 7 anyFg (out ++ bs "on default ") parts
        else some none
termination_by parts.length
decreasing_by all_goals simp only [List.length_cons]; omega

/-- `strip_if_ends_with`, core/src/settings.cpp:1111-1119. -/
def stripEnd (s suffix : List Nat) : Option (List Nat) :=
  if suffix.length < s.length ∧ suffix.isSuffixOf s = true then some (s.take (s.length - suffix.length)) else none

/-- `format_color`, core/src/settings.cpp:1248-1249. -/
def trimBlanks (s : List Nat) : List Nat := (s.reverse.dropWhile (· == 32)).reverse

/-- `format_color`, core/src/settings.cpp:1122-1250. -/
def format (compat : Bool) (color : List Nat) : Option (List Nat) :=
  if color = [] then some []
  else
    (formatLoop compat 0 false [] (Tok.tokens Utf.iter8 [59] color)).map fun
      | none => bs "sgr " ++ color
      | some out =>
        if out = [] ∨ out = bs "default on default " then bs "default"
        else
          trimBlanks
            (match stripEnd out (bs "default on default ") with
             | some s => s
             | none => (stripEnd out (bs "on default ")).getD out)

end Clink.Color
