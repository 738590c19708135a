import Verif.Model.Color

/-!
Model of text attributes: how they are combined, written as escape sequences, read from escape sequences, and shown on a console that does not process escape sequences.
Sources: clink/terminal/src/attributes.cpp, clink/terminal/src/printer.cpp, `decode_csi` in clink/terminal/src/ecma48_iter.cpp, `set_attributes` in clink/terminal/src/ecma48_terminal_out.cpp and in
clink/terminal/src/win_screen_buffer.cpp.

`m_state` is the fields; operations on its bits are operations on each field.  The unused bits of `flags` are left out.
-/

namespace Clink.Attributes

/-- `attributes`, terminal/include/terminal/attributes.h:43-121: the values, and whether each is set. -/
structure Attr where
  fg : BitVec 16 := 0
  bg : BitVec 16 := 0
  bold : Bool := false
  underline : Bool := false
  reverse : Bool := false
  hasFg : Bool := false
  hasBg : Bool := false
  hasBold : Bool := false
  hasUnderline : Bool := false
  hasReverse : Bool := false
  deriving DecidableEq, Repr

/-- `default_code`, attributes.cpp:10-13. -/
def defaultCode : BitVec 16 := 231

/-- `attributes::reset_fg` and `reset_bg`, attributes.cpp:93-104. -/
def Attr.resetFg (a : Attr) : Attr := { a with hasFg := true, fg := defaultCode }
def Attr.resetBg (a : Attr) : Attr := { a with hasBg := true, bg := defaultCode }

/-- `attributes::set_fg(uint8)` and `set_bg(uint8)`, attributes.cpp:107-124. -/
def Attr.setFg (a : Attr) (value : BitVec 8) : Attr := { a with hasFg := true, fg := if value.setWidth 16 = defaultCode then 15 else value.setWidth 16 }
def Attr.setBg (a : Attr) (value : BitVec 8) : Attr := { a with hasBg := true, bg := if value.setWidth 16 = defaultCode then 15 else value.setWidth 16 }

/-- A colour with `is_rgb`, attributes.h:46-61 (the bits of `r` are the lowest), attributes.cpp:130-133. -/
def rgbValue (r g b : BitVec 8) : BitVec 16 := BitVec.ofNat 16 (32768 + (b >>> 3).toNat * 1024 + (g >>> 3).toNat * 32 + (r >>> 3).toNat)

/-- `attributes::set_fg(uint8, uint8, uint8)` and `set_bg`, attributes.cpp:127-144. -/
def Attr.setFgRgb (a : Attr) (r g b : BitVec 8) : Attr := { a with hasFg := true, fg := rgbValue r g b }
def Attr.setBgRgb (a : Attr) (r g b : BitVec 8) : Attr := { a with hasBg := true, bg := rgbValue r g b }

/-- `set_bold`, `set_underline`, `set_reverse`, attributes.cpp:147-165. -/
def Attr.setBold (a : Attr) (state : Bool) : Attr := { a with hasBold := true, bold := state }
def Attr.setUnderline (a : Attr) (state : Bool) : Attr := { a with hasUnderline := true, underline := state }
def Attr.setReverse (a : Attr) (state : Bool) : Attr := { a with hasReverse := true, reverse := state }

/-- `attributes::attributes(default_e)`, attributes.cpp:34-42. -/
def defaults : Attr := ((((({} : Attr).resetFg).resetBg).setBold false).setUnderline false).setReverse false

/-- `attributes::operator==`, attributes.cpp:45-56. -/
def Attr.eq (a b : Attr) : Bool :=
  (if a.hasFg && b.hasFg then a.fg == b.fg else true) && (if a.hasBg && b.hasBg then a.bg == b.bg else true) && (if a.hasBold && b.hasBold then a.bold == b.bold else true) &&
  (if a.hasUnderline && b.hasUnderline then a.underline == b.underline else true) && (if a.hasReverse && b.hasReverse then a.reverse == b.reverse else true)

/-- `attributes::merge`, attributes.cpp:59-75. -/
def merge (first second : Attr) : Attr :=
  let maskFg : BitVec 16 := if second.hasFg then ~~~0 else 0
  let maskBg : BitVec 16 := if second.hasBg then ~~~0 else 0
  { fg := (first.fg &&& ~~~maskFg) ||| (second.fg &&& maskFg)
    bg := (first.bg &&& ~~~maskBg) ||| (second.bg &&& maskBg)
    bold := (first.bold && !second.hasBold) || (second.bold && second.hasBold)
    underline := (first.underline && !second.hasUnderline) || (second.underline && second.hasUnderline)
    reverse := (first.reverse && !second.hasReverse) || (second.reverse && second.hasReverse)
    hasFg := second.hasFg || first.hasFg
    hasBg := second.hasBg || first.hasBg
    hasBold := second.hasBold || first.hasBold
    hasUnderline := second.hasUnderline || first.hasUnderline
    hasReverse := second.hasReverse || first.hasReverse }

/-- `attributes::diff`, attributes.cpp:78-90. -/
def diff (src dst : Attr) : Attr :=
  { dst with
    hasFg := dst.hasFg && !(dst.fg == src.fg)
    hasBg := dst.hasBg && !(dst.bg == src.bg)
    hasBold := dst.hasBold && (dst.bold != src.bold)
    hasUnderline := dst.hasUnderline && (dst.underline != src.underline)
    hasReverse := dst.hasReverse && (dst.reverse != src.reverse) }

/-! Escape sequences. -/

structure Csi where
  final : Nat := 0
  intermediate : Nat := 0
  private_use : Bool := false
  params : List Nat := []
  deriving DecidableEq, Repr

/-- The loop of `decode_csi`, ecma48_iter.cpp:113-139; `none` if a number is too large for `int32`. -/
def decodeGo (max : Nat) : List Nat → (intermediate final param : Nat) → (params : List Nat) → (trailing : Bool) → Option (Nat × Nat × List Nat)
  | [], i, f, param, ps, trailing => some (i, f, if trailing && decide (ps.length < max) then ps ++ [param] else ps)
  | c :: r, i, f, param, ps, trailing =>
    if 48 ≤ c ∧ c ≤ 59 then
      if c = 59 then decodeGo max r i f 0 (if ps.length < max then ps ++ [param] else ps) true
      else if c ≠ 58 then
        if 2147483647 < param * 10 + (c - 48) then none else decodeGo max r i f (param * 10 + (c - 48)) ps true
      else decodeGo max r i f param ps true
    else if 32 ≤ c ∧ c ≤ 47 then decodeGo max r c f param ps trailing
    else if ¬ (60 ≤ c ∧ c ≤ 63) then decodeGo max r i c param ps trailing
    else decodeGo max r i f param ps trailing

/-- `ecma48_code::decode_csi`, ecma48_iter.cpp:97-147, for the characters of a code of that kind (without NUL). -/
def decodeCsi (max : Nat) (code : List Nat) : Option Csi :=
  let r := if code.head? = some 27 then code.drop 2 else code.drop 1
  let pr := r.head?.any fun c => decide (60 ≤ c ∧ c ≤ 63)
  let r := if pr then r.drop 1 else r
  match decodeGo max r 0 0 0 [] false with
  | none => none
  | some (i, f, ps) => some { final := f, intermediate := i, private_use := pr, params := ps }

/-- `s_rgb_cube`, ecma48_terminal_out.cpp:21. -/
def cube (i : Nat) : BitVec 8 := [0x00, 0x5f, 0x87, 0xaf, 0xd7, 0xff].getD i 0

def byte (n : Nat) : BitVec 8 := BitVec.ofNat 8 n

/-- The colour for `38;5` and `48;5`, ecma48_terminal_out.cpp:365-395. -/
def indexed (fg : Bool) (param : Nat) (a : Attr) : Attr :=
  let idx := (byte param).toNat
  if idx < 16 then (if fg then a.setFg (byte idx) else a.setBg (byte idx))
  else if 232 ≤ idx then
    let gray := byte (8 + (idx - 232) * 10)
    if fg then a.setFgRgb gray gray gray else a.setBgRgb gray gray gray
  else
    let idx := idx - 16
    let b := idx % 6
    let idx := idx / 6
    let g := idx % 6
    let r := idx / 6
    if fg then a.setFgRgb (cube r) (cube g) (cube b) else a.setBgRgb (cube r) (cube g) (cube b)

/-- The loop of `ecma48_terminal_out::set_attributes`, ecma48_terminal_out.cpp:285-402; the list is what is left. -/
def sgrGo : List Nat → Attr → Attr
  | [], a => a
  | param :: r, a =>
    if param = 0 then sgrGo r defaults
    else if param = 49 then sgrGo r a.resetBg
    else if param = 39 then sgrGo r a.resetFg
    else if param = 1 ∨ param = 2 ∨ param = 22 then sgrGo r (a.setBold (param == 1))
    else if param = 4 ∨ param = 24 then sgrGo r (a.setUnderline (param == 4))
    else if 30 ≤ param ∧ param ≤ 37 ∨ 90 ≤ param ∧ param ≤ 97 then sgrGo r (a.setFg (byte ((param + if 90 ≤ param then 14 else 2) &&& 0x0f)))
    else if 40 ≤ param ∧ param ≤ 47 ∨ 100 ≤ param ∧ param ≤ 107 then sgrGo r (a.setBg (byte ((param + if 100 ≤ param then 4 else 8) &&& 0x0f)))
    else if param = 7 ∨ param = 27 then sgrGo r (a.setReverse (param == 7))
    else if param = 38 ∨ param = 48 then
      match r with
      | [] => a
      | type :: r =>
        if type = 2 then
          match r with
          | x :: y :: z :: r => sgrGo r (if param = 38 then a.setFgRgb (byte x) (byte y) (byte z) else a.setBgRgb (byte x) (byte y) (byte z))
          | _ => a
        else if type = 5 then
          match r with
          | x :: r => sgrGo r (indexed (param == 38) x a)
          | [] => a
        else sgrGo r a
    else sgrGo r a
termination_by r => r.length

/-- `ecma48_terminal_out::set_attributes`, ecma48_terminal_out.cpp:273-405: what is given to the screen. -/
def sgr (params : List Nat) : Attr := if params = [] then defaults else sgrGo params {}

/-! The printer. -/

/-- What is written: an escape sequence for attributes (as in printer.cpp:192-194) with its parameters, or text. -/
inductive Out
  | seq (params : List Nat)
  | text (data : List Nat)
  deriving DecidableEq, Repr

structure Printer where
  set : Attr := defaults
  next : Attr := defaults
  nodiff : Bool := false
  deriving DecidableEq, Repr

def addParam (params x : List Nat) : List Nat := (if params ≠ [] then params ++ [59] else params) ++ x

/-- `printer::flush_attributes`, printer.cpp:141-198. -/
def Printer.flush (p : Printer) : Printer × List Out :=
  let d := if p.nodiff then p.next else diff p.set p.next
  let params : List Nat := []
  let params :=
    if d.fg = defaultCode ∧ d.bg = defaultCode then addParam params (Color.bs "0")
    else
      let params :=
        if d.hasFg then
          if d.fg ≠ defaultCode then addParam params [51 + if 7 < d.fg.toNat then 6 else 0, 48 + (d.fg.toNat &&& 7)]
          else addParam params (Color.bs "39")
        else params
      if d.hasBg then
        if d.bg ≠ defaultCode then addParam params ((if 7 < d.bg.toNat then [49] else []) ++ [48 + if 7 < d.bg.toNat then 0 else 4, 48 + (d.bg.toNat &&& 7)])
        else addParam params (Color.bs "49")
      else params
  let params := if d.hasBold then addParam params (Color.bs (if d.bold then "1" else "22")) else params
  let params := if d.hasUnderline then addParam params (Color.bs (if d.underline then "4" else "24")) else params
  ({ p with set := p.next }, if params ≠ [] then [.seq params] else [])

/-- `printer::set_attributes`, printer.cpp:133-138: the printer and the attributes before. -/
def Printer.setAttributes (p : Printer) (a : Attr) : Printer × Attr := ({ p with next := merge p.next a }, p.next)

/-- `printer::print(const char*, int32)`, printer.cpp:36-60. -/
def Printer.print (p : Printer) (data : List Nat) : Printer × List Out :=
  if data = [] then (p, [])
  else
    let (p, o) := if !p.next.eq p.set then p.flush else (p, [])
    (p, o ++ [.text data])

/-- `printer::print(const attributes, const char*, int32)`, printer.cpp:63-69. -/
def Printer.printAttr (p : Printer) (a : Attr) (data : List Nat) : Printer × List Out :=
  let (p, prev) := p.setAttributes a
  let (p, o) := p.print data
  let (p, _) := p.setAttributes prev
  let (p, o') := p.flush
  (p, o ++ o')

/-- `printer::print(const char*, const char*, int32)`, printer.cpp:72-83; `attr` are the parameters as text. -/
def Printer.printText (p : Printer) (attr data : List Nat) : Printer × List Out :=
  let prev := p.next
  let (p, o) := if !p.next.eq p.set then p.flush else (p, [])
  let (p, o') := p.print data
  let (p, _) := p.setAttributes prev
  let (p, o'') := p.flush
  ({ p with nodiff := true }, o ++ [.seq attr] ++ o' ++ o'')

/-! The console. -/

/-- The attributes of the console, and `m_bold` and `m_reverse` of `win_screen_buffer`. -/
structure Console where
  word : Nat
  bold : Bool
  reverse : Bool
  deriving DecidableEq, Repr

/-- Exchanges the colours, win_screen_buffer.cpp:1118-1120 and 1199-1201. -/
def swap (out : Nat) : Nat := ((out &&& 0xffffff0f) <<< 4) ||| ((out &&& 0xf0) >>> 4)

/-- win_screen_buffer.cpp:1124-1127. -/
def swizzle (rgbi : Nat) : Nat := (rgbi &&& 0x0a) ||| (((rgbi &&& 1) <<< 2) ||| (if rgbi &&& 4 ≠ 0 then 1 else 0))

def isRgb (c : BitVec 16) : Bool := decide (32768 ≤ c.toNat)

/-- `color::as_888`, attributes.cpp:18-23. -/
def as888 (c : BitVec 16) : Nat × Nat × Nat :=
  let f (x : Nat) : Nat := (x <<< 3 ||| (x &&& 7)) % 256
  (f (c.toNat % 32), f (c.toNat / 32 % 32), f (c.toNat / 1024 % 32))

/-- `win_screen_buffer::find_best_palette_match`, win_screen_buffer.cpp:1231-1254; `best` is the function before it, 1209-1228, which gives a colour number in ANSI order. -/
def findPalette (best : Nat × Nat × Nat → Option (BitVec 8)) (a : Attr) : Option Attr :=
  let fg := a.fg
  let bg := a.bg
  let a := if isRgb fg then (best (as888 fg)).map a.setFg else some a
  match a with
  | none => none
  | some a => if isRgb bg then (best (as888 bg)).map a.setBg else some a

/-- `win_screen_buffer::set_attributes`, win_screen_buffer.cpp:1107-1206; `dflt` is `m_default_attr`. -/
def Console.setAttributes (best : Nat × Nat × Nat → Option (BitVec 8)) (dflt : Nat) (s : Console) (a : Attr) : Console :=
  let out := s.word &&& 0x80ff
  let out := if s.reverse then swap out else out
  match findPalette best a with
  | none => s
  | some a =>
    let m_bold := if a.hasBold then a.bold else s.bold
    let apply := a.hasBold
    let out := if a.hasUnderline then (if a.underline then out ||| 0x8000 else out &&& 0xffff7fff) else out
    let bold := m_bold
    let (out, bold) :=
      if a.hasFg then
        let value := (if a.fg = defaultCode then dflt else swizzle a.fg.toNat) &&& 0x0f
        ((out &&& 0xfffffff0) ||| value, bold || decide (7 < value))
      else (out, bold || out &&& 8 != 0)
    let out := if apply then (if bold then out ||| 8 else out &&& 0xfffffff7) else out
    let out :=
      if a.hasBg then
        let value := if a.bg = defaultCode then dflt else swizzle a.bg.toNat <<< 4
        (out &&& 0xffffff0f) ||| (value &&& 0xf0)
      else out
    let m_reverse := if a.hasReverse then a.reverse else s.reverse
    let out := if m_reverse then swap out else out
    { word := (out ||| (s.word &&& 0x7f00)) &&& 0xffff, bold := m_bold, reverse := m_reverse }

/-- What `ecma48_terminal_out::write` does with what the printer writes, ecma48_terminal_out.cpp:125-160 and 215-270, if the console does not process escape sequences: the console when each text is
written, and at the end.  `none` if a number is too large. -/
def Console.run (best : Nat × Nat × Nat → Option (BitVec 8)) (dflt : Nat) : Console → List Out → Option (List (Console × List Nat) × Console)
  | s, [] => some ([], s)
  | s, .text d :: o => (Console.run best dflt s o).map fun p => ((s, d) :: p.1, p.2)
  | s, .seq ps :: o =>
    match decodeCsi 32 ([27, 91] ++ ps ++ [109]) with
    | none => none
    | some csi => Console.run best dflt (s.setAttributes best dflt (sgr csi.params)) o

end Clink.Attributes
