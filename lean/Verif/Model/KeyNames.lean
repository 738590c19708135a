/-! Model of the raw names of keys that the list of key bindings shows (`translate_keyseq` without `friendly`, clink/lib/src/rl/rl_help.cpp) and
of how readline reads them in an inputrc file (`rl_parse_and_bind` and `rl_translate_keyseq`, readline/readline/bind.c).

Keys and texts are lists of bytes; a text has no NUL.  `char` is signed, as with the compilers that are used. -/

namespace Clink.KeyNames

abbrev Text := List Nat

def txt (s : String) : Text := s.toList.map Char.toNat

/-! Writing -/

/-- `ctrl_map`, lib/src/rl/rl_help.cpp:567. -/
def ctrlMap : Text := txt "@abcdefghijklmnopqrstuvwxyz[\\]^_"

/-- One key in the loop, lib/src/rl/rl_help.cpp:594-626. -/
def one (c : Nat) : Text :=
  if c = 27 then txt "\\e"
  else if c < 32 then txt "\\C-" ++ [ctrlMap.getD c 0]
  else if c = 127 then txt "\\C-?"
  else if c = 92 ∨ c = 34 then [92, c]
  else [c]

/-- The loop, lib/src/rl/rl_help.cpp:583-627: for two keys of which only the first one is ESC it becomes `\M-`. -/
def body : List Nat → Text
  | [a, b] => if a = 27 ∧ b ≠ 27 then txt "\\M-" ++ one b else one a ++ one b
  | ks => ks.flatMap one

/-- The name, lib/src/rl/rl_help.cpp:578-632. -/
def name (ks : List Nat) : Text := 34 :: body ks ++ [34]

/-- `sort` after the loop, before it is shifted: 4 for ESC and 2 for control keys, while `first_key`; lib/src/rl/rl_help.cpp:583-627. -/
def sortLoop : Nat → List Nat → Nat
  | s, [] => s
  | s, c :: cs =>
    if c = 27 then sortLoop (s ||| 4) cs
    else if c < 32 ∨ c = 127 then s ||| 2
    else s

/-- `sort`, lib/src/rl/rl_help.cpp:631. -/
def sort (ks : List Nat) : Nat := sortLoop 0 ks * 65536

/-! Reading -/

/-- The text in quotes, from behind the first quote: `_rl_skip_to_delim`, readline/readline/bind.c:1681-1706, finds the end, and
readline/readline/bind.c:1902-1921 copies it.  The result is the text and what follows, or none if there is no closing quote. -/
def quoted : Text → Option (Text × Text)
  | [] => none
  | 34 :: r => some ([], r)
  | [92] => none
  | 92 :: d :: r => (quoted r).map fun (s, t) => (92 :: d :: s, t)
  | c :: r => (quoted r).map fun (s, t) => (c :: s, t)

def isOctal (c : Nat) : Bool := 48 ≤ c && c ≤ 55
def hexValue (c : Nat) : Option Nat :=
  if 48 ≤ c ∧ c ≤ 57 then some (c - 48)
  else if 65 ≤ c ∧ c ≤ 70 then some (c - 55)
  else if 97 ≤ c ∧ c ≤ 102 then some (c - 87)
  else none

/-- At most `k` octal digits, readline/readline/bind.c:596-597. -/
def octal : Nat → Nat → Text → Nat × Text
  | k + 1, v, c :: r => if isOctal c then octal k ((v * 8 + (c - 48)) % 256) r else (v, c :: r)
  | _, v, r => (v, r)

/-- At most `k` hexadecimal digits, readline/readline/bind.c:603-604. -/
def hexa : Nat → Nat → Text → Nat × Text
  | k + 1, v, c :: r =>
    match hexValue c with
    | some d => hexa k ((v * 16 + d) % 256) r
    | none => (v, c :: r)
  | _, v, r => (v, r)

/-- What a backslash and `d` mean, and what follows; readline/readline/bind.c:561-613. -/
def escape (d : Nat) (r : Text) : Nat × Text :=
  if d = 97 then (7, r)
  else if d = 98 then (8, r)
  else if d = 100 then (127, r)
  else if d = 101 then (27, r)
  else if d = 102 then (12, r)
  else if d = 110 then (10, r)
  else if d = 114 then (13, r)
  else if d = 116 then (9, r)
  else if d = 118 then (11, r)
  else if isOctal d then octal 2 (d - 48) r
  else if d = 120 then
    match r with
    | c :: _ => if (hexValue c).isSome then hexa 2 0 r else (120, r)
    | [] => (120, r)
  else (d, r)

/-- `_rl_to_upper`, for ASCII. -/
def toUpper (c : Nat) : Nat := if 97 ≤ c ∧ c ≤ 122 then c - 32 else c

/-- The keys for a character, readline/readline/bind.c:616-648; `conv` is `_rl_convert_meta_chars_to_ascii`. -/
def put (conv ctl meta_ : Bool) (c : Nat) : List Nat :=
  let c := if ctl then (if c = 63 then 127 else toUpper c % 32) else c
  if meta_ then [27, c % 128]
  else if c > 127 ∧ conv then (if c % 128 ≠ 0 then [27, c % 128] else [c])
  else [c]

/-- The loop of `rl_translate_keyseq`, readline/readline/bind.c:533-656; `ctl` and `meta_` are `has_control` and `has_meta`.  Every round
takes at least one character, so a number of rounds greater than the length is enough. -/
def loop (conv : Bool) : Nat → Bool → Bool → Text → List Nat
  | 0, _, _, _ => []
  | _ + 1, ctl, meta_, [] => if ctl || meta_ then put conv ctl meta_ 0 else []
  | k + 1, ctl, meta_, c :: r =>
    match c, r with
    | 92, d :: r =>
      if d = 67 ∧ r.head? = some 45 then loop conv k true meta_ r.tail
      else if d = 77 ∧ r.head? = some 45 then loop conv k ctl true r.tail
      else put conv ctl meta_ (escape d r).1 ++ loop conv k false false (escape d r).2
    | c, r => put conv ctl meta_ c ++ loop conv k false false r

/-- `rl_translate_keyseq`, readline/readline/bind.c:520-661. -/
def translate (conv : Bool) (s : Text) : List Nat := loop conv (s.length + 1) false false s

/-- The keys that a line of an inputrc file binds, for a line that begins with a quote, and what follows the closing quote;
readline/readline/bind.c:1746-1758 and 1897-1935. -/
def bound (conv : Bool) : Text → Option (List Nat × Text)
  | 34 :: s => (quoted s).map fun (t, r) => (translate conv t, r)
  | _ => none

end Clink.KeyNames
