import Verif.Model.Utf
import Verif.Model.Color
/-
Model of the input of the terminal, `win_terminal_in` (clink/terminal/src/win_terminal_in.cpp): how the records
that the console delivers become the bytes that the line editor reads.

The queue of the console is a list with everything that will come; every call gets the number of records that
come in time, so waiting for input and time-outs need no clock.  The bit mask `dwControlKeyState` is a structure
of flags.  Messages for `-v` and for the log, the cursor, the modes of the console, the scrolling of the console
and the context menu (for mouse input that nobody accepts) are left out.
-/
namespace Clink.TermIn

/-- `dwControlKeyState`; `other` is true if any further flag is set, e.g. NumLock. -/
structure Flags where
  ralt : Bool := false
  lalt : Bool := false
  rctrl : Bool := false
  lctrl : Bool := false
  shift : Bool := false
  other : Bool := false
deriving Repr, DecidableEq

def Flags.ctrl (f : Flags) : Bool := f.lctrl || f.rctrl
def Flags.alt (f : Flags) : Bool := f.lalt || f.ralt
def Flags.any (f : Flags) : Bool := f.ctrl || f.alt || f.shift || f.other

/-- `KEY_EVENT_RECORD`. -/
structure Key where
  down : Bool := true
  vk : Nat
  sc : Nat := 0
  ch : Nat
  flags : Flags := {}
deriving Repr, DecidableEq

/-- `MOUSE_EVENT_RECORD`: the two buttons and the high word of `dwButtonState`, and `dwEventFlags`. -/
structure Mouse where
  x : Nat
  y : Nat
  left : Bool := false
  right : Bool := false
  delta : Int := 0
  double : Bool := false
  wheeled : Bool := false
  hwheeled : Bool := false
  moved : Bool := false
deriving Repr, DecidableEq

/-- `INPUT_RECORD`.  For `WINDOW_BUFFER_SIZE_EVENT` there is whether the size is another one. -/
inductive Record where
  | key (k : Key)
  | mouse (m : Mouse)
  | size (changed : Bool)
  | other
deriving Repr, DecidableEq

/-- `mouse_input_type`, terminal/src/key_tester.h. -/
inductive MouseType where
  | leftClick | rightClick | doubleClick | wheel | hwheel | drag
deriving Repr, DecidableEq

/-- `key_tester`. -/
structure Tester where
  bound : List Nat → Bool
  translate : List Nat → Option (List Nat)
  mouse : MouseType → Bool

/-- Settings, the names of keys (`key_name_from_vk`, empty if there is none), the lines for one step of the wheel and
`m_keys`. -/
structure Cfg where
  rawEsc : Bool := false
  differentiate : Bool := false
  altgr : Bool := false
  altF4 : Bool := true
  windows : Bool := false
  keyName : Nat → Nat → List Nat := fun _ _ => []
  wheelLines : Nat := 3
  keys : Option Tester := none

/-! ## Sequences, terminal/src/win_terminal_in.cpp:93-172 -/

def csi (s : List Nat) : List Nat := 27 :: 91 :: s
/-- `;N` for the modifiers, in the order of the tables: nothing, shift, ctrl, ctrl-shift, alt, alt-shift, alt-ctrl,
alt-ctrl-shift. -/
def modDigit (i : Nat) : Nat := [49, 50, 53, 54, 51, 52, 55, 56].getD i 0
/-- The rows `{ CSI(A), CSI(1;2A), ... }`. -/
def letterSeq (c i : Nat) : List Nat := if i = 0 then csi [c] else csi [49, 59, modDigit i, c]
/-- The rows `{ CSI(2~), CSI(2;2~), ... }`. -/
def tildeSeq (d : List Nat) (i : Nat) : List Nat :=
  if i = 0 then csi (d ++ [126]) else csi (d ++ [59, modDigit i, 126])
/-- `MOK(m;k)`. -/
def mok (i : Nat) (k : List Nat) : List Nat := csi ([50, 55, 59, modDigit i, 59] ++ k ++ [126])
def kbks (i : Nat) : List Nat :=
  if i = 0 then [8] else if i = 2 then [127] else if i = 4 then [27, 8] else if i = 6 then [27, 127] else mok i [56]
def kret (i : Nat) : List Nat := if i = 0 then [13] else mok i [49, 51]
def ktab (i : Nat) : List Nat :=
  if i = 0 then [9] else if i = 1 then csi [90] else if i = 2 ∨ i = 3 then mok i [57] else []
def kspc (i : Nat) : List Nat := if i = 0 then [32] else if i = 4 ∨ i = 5 then [] else mok i [51, 50]
/-- The digits of F5 to F12. -/
def fnDigits (n : Nat) : List Nat :=
  [[49, 53], [49, 55], [49, 56], [49, 57], [50, 48], [50, 49], [50, 51], [50, 52]].getD (n - 4) []
/-- `kfx`, terminal/src/win_terminal_in.cpp:115-155, with `n` from 0 for F1. -/
def kfx (i n : Nat) : List Nat :=
  let base := if n < 4 then
      if i % 4 = 0 then [27, 79, 80 + n] else letterSeq (80 + n) (i % 4)
    else tildeSeq (fnDigits n) (i % 4)
  if i < 4 then base else 27 :: base

/-- `keymod_index`, terminal/src/win_terminal_in.cpp:171-179. -/
def keymodIndex (f : Flags) : Nat :=
  (if f.shift then 1 else 0) + (if f.ctrl then 2 else 0) + (if f.alt then 4 else 0)

/-- `xterm_modifier`, terminal/src/win_terminal_in.cpp:161-169. -/
def xtermModifier (f : Flags) : Nat :=
  (if f.shift then 1 else 0) + (if f.alt then 2 else 0) + (if f.ctrl then 4 else 0) + 1

/-- `is_vk_recognized`, terminal/src/win_terminal_in.cpp:181-212. -/
def vkRecognized (vk : Nat) : Bool :=
  (65 ≤ vk && vk ≤ 90) || (48 ≤ vk && vk ≤ 57) ||
    [0xBA, 0xBB, 0xBC, 0xBD, 0xBE, 0xBF, 0xC0, 0xDB, 0xDC, 0xDD, 0xDE].contains vk

/-- What a record makes of the buffer: `push` of a string, of some values, or `input_exit_byte` alone. -/
inductive Act where
  | none
  | seq (s : List Nat)
  | chars (l : List Nat)
  | exit
deriving Repr, DecidableEq

/-- `translate_ctrl_bracket`, terminal/src/win_terminal_in.cpp:1408-1441. -/
def translateCtrlBracket (g : Cfg) (vk sc : Nat) : Option Nat :=
  match g.keyName vk sc with
  | [c] => if c = 91 then (if g.rawEsc then some 27 else none) else if c = 93 ∨ c = 92 then some (c - 64) else none
  | _ => none

/-- The codes of ctrl keys, terminal/src/win_terminal_in.cpp:1622-1692: the value to push. -/
def ctrlCode (g : Cfg) (vk sc ch : Nat) (f : Flags) : Option Nat :=
  if !f.shift || vk = 50 || vk = 54 || vk = 0xBD then
    let notCtrl := translateCtrlBracket g vk sc
    if 65 ≤ vk ∧ vk ≤ 90 then
      if (vk = 72 ∨ vk = 73) ∧ g.differentiate then notCtrl
      else if vk = 77 ∧ (g.differentiate ∨ g.windows) then notCtrl
      else some (vk - 64)
    else if vk = 50 then if g.differentiate ∧ !f.shift then notCtrl else some 0
    else if vk = 54 then if g.differentiate ∧ !f.shift then notCtrl else some 30
    else if vk = 0xBD then if !f.shift then none else some 31
    else if ch = 27 then if g.differentiate then notCtrl else some 27
    else if ch = 28 ∨ ch = 29 then some ch
    else notCtrl
  else none

/-- Cursor keys and the like, terminal/src/win_terminal_in.cpp:1599-1619. -/
def namedSeq (vk i : Nat) : Option (List Nat) :=
  if vk = 38 then some (letterSeq 65 i)
  else if vk = 40 then some (letterSeq 66 i)
  else if vk = 37 then some (letterSeq 68 i)
  else if vk = 39 then some (letterSeq 67 i)
  else if vk = 36 then some (letterSeq 72 i)
  else if vk = 35 then some (letterSeq 70 i)
  else if vk = 45 then some (tildeSeq [50] i)
  else if vk = 46 then some (tildeSeq [51] i)
  else if vk = 33 then some (tildeSeq [53] i)
  else if vk = 34 then some (tildeSeq [54] i)
  else if vk = 8 then some (kbks i)
  else none

/-- Whether a character is pushed as it is, terminal/src/win_terminal_in.cpp:1578-1588. -/
def simpleChar (g : Cfg) (vk ch : Nat) (f : Flags) : Bool :=
  if vk = 72 ∨ vk = 73 then !f.ctrl || !g.differentiate
  else if vk = 77 then !f.ctrl || (!g.differentiate && !g.windows)
  else if ch = 27 ∧ vk ≠ 27 then keymodIndex f < 2
  else if vk = 13 ∨ vk = 8 then !(f.ctrl || f.shift)
  else !f.ctrl || !f.shift

/-- The end of `process_input`, terminal/src/win_terminal_in.cpp:1599-1713. -/
def actRest (g : Cfg) (vk sc ch : Nat) (f : Flags) : Act :=
  match namedSeq vk (keymodIndex f) with
  | some s => .seq s
  | none =>
    match (if f.ctrl then ctrlCode g vk sc ch f else none) with
    | some v => .chars (if f.alt then [27, v] else [v])
    | none =>
      if vkRecognized vk then
        .seq (if xtermModifier f ≥ 2 then csi ([50, 55, 59] ++ Color.digits (xtermModifier f) ++ [59] ++ Color.digits vk ++ [126])
          else csi ([50, 55, 59] ++ Color.digits vk ++ [126]))
      else .none

/-- `process_input` for keys from the treatment of AltGr on, terminal/src/win_terminal_in.cpp:1503-1713.  `empty` is
`!m_buffer_count`. -/
def actKey (g : Cfg) (empty : Bool) (vk sc ch : Nat) (f : Flags) : Act :=
  let left := f.lalt && !f.ralt
  let sub := left && f.ctrl && ch != 0
  let ch := if sub && !g.altgr then 0 else ch
  let f := if sub && g.altgr then { f with lalt := false, ralt := false } else f
  if vk = 9 ∧ (ch = 9 ∨ ch = 0) ∧ empty then .seq (ktab (keymodIndex f))
  else if vk = 32 ∧ (ch = 32 ∨ ch = 0) ∧ empty then .seq (kspc (keymodIndex f))
  else if vk = 13 ∧ f.any ∧ empty then .seq (kret (keymodIndex f))
  else
    let f := if ch > 31 ∧ ch ≠ 127 ∧ f.ctrl then { f with lalt := false, ralt := false, lctrl := false, rctrl := false } else f
    if ch = 9 ∧ empty ∧ f.shift ∧ !g.differentiate then .seq (csi [90])
    else if 0x70 ≤ vk ∧ vk ≤ 0x7B then
      if keymodIndex f = 4 ∧ vk = 0x73 ∧ g.altF4 then .exit else .seq (kfx (keymodIndex f) (vk - 0x70))
    else if ch = 79 ∧ !g.rawEsc ∧ !f.ctrl ∧ f.shift ∧ f.alt then .seq (mok 5 [55, 57])
    else if ch = 91 ∧ !g.rawEsc ∧ !f.ctrl ∧ !f.shift ∧ f.alt then .seq (mok 4 [57, 49])
    else if ch ≠ 0 ∧ simpleChar g vk ch f then .chars (if f.alt then [27, ch] else [ch])
    else actRest g vk sc ch f

/-- `process_input` for keys, terminal/src/win_terminal_in.cpp:1444-1714.  `raw` is `s_force_raw_esc` or
`s_sending_terminal_request`. -/
def act (g : Cfg) (raw empty : Bool) (k : Key) : Act :=
  if !k.down ∧ ¬ (k.vk = 18 ∧ k.ch ≠ 0) then .none
  else if k.vk = 18 then if k.ch ≠ 0 then .chars [k.ch] else .none
  else if k.vk = 17 ∨ k.vk = 16 ∨ k.vk = 0x5B ∨ k.vk = 0x5C then .none
  else if k.ch = 27 ∧ (k.vk = 27 ∨ !g.differentiate) ∧ !raw ∧ !g.rawEsc then .seq (csi [50, 55, 59, 50, 55, 126])
  else actKey g empty k.vk k.sc k.ch k.flags

/-! ## The buffer -/

/-- The members that matter.  `pending` has the back of the vector first; `processed` has it last. -/
structure St where
  buf : List Nat := List.replicate 16 0
  head : Nat := 0
  count : Nat := 0
  lead : Nat := 0
  prevLeft : Bool := false
  prevRight : Bool := false
  pending : List Record := []
  processed : List Record := []
  queue : List Record := []
  sending : Bool := false
  force : Bool := false
deriving Repr, DecidableEq

/-- Storing one byte if there is room. -/
def St.put (s : St) (b : Nat) : St :=
  if s.count < 16 then { s with buf := s.buf.set ((s.head + s.count) % 16) b, count := s.count + 1 } else s

/-- `push(const char*)`, terminal/src/win_terminal_in.cpp:1920-1936. -/
def pushSeq (s : St) (l : List Nat) : St := l.foldl St.put { s with lead := 0 }

/-- `is_lead_surrogate`, terminal/src/win_terminal_in.cpp:238. -/
def isLead (v : Nat) : Bool := 0xD800 ≤ v && v ≤ 0xDBFF

/-- `push(uint32)`, terminal/src/win_terminal_in.cpp:1939-1987. -/
def pushVal (s : St) (v : Nat) : St :=
  if v < 0x80 then { s with lead := 0 }.put v
  else if isLead v then { s with lead := v }
  else
    let wc := (if s.lead ≠ 0 then [s.lead] else []) ++ [v % 65536]
    (Utf.toUtf8 (some 16) wc).out.foldl St.put { s with lead := 0 }

/-- `pop`, terminal/src/win_terminal_in.cpp:1990-2001. -/
def pop (s : St) : St × Nat :=
  if s.count = 0 then (s, 0xFE)
  else ({ s with count := s.count - 1, head := (s.head + 1) % 16 }, s.buf.getD s.head 0)

def St.apply (s : St) : Act → St
  | .none => s
  | .seq l => pushSeq s l
  | .chars l => l.foldl pushVal s
  | .exit => { s with head := 0, count := 1, buf := s.buf.set 0 0xFD }

/-- `process_input` for keys. -/
def processKey (g : Cfg) (s : St) (k : Key) : St := s.apply (act g (s.force || s.sending) (s.count = 0) k)

/-- `process_input` for the mouse, terminal/src/win_terminal_in.cpp:1754-1873. -/
def mouseAct (g : Cfg) (pl pr : Bool) (m : Mouse) : Act :=
  let left := !pl && m.left
  let right := !left && (!pr && m.right)
  let wheel := !left && !right && m.wheeled
  let hwheel := !left && !right && !wheel && m.hwheeled
  let drag := m.left && !left && !right && !wheel && !hwheel && m.moved
  let mask : Option MouseType := if left then some .leftClick else if right then some .rightClick
    else if wheel then some .wheel else if hwheel then some .hwheel else if drag then some .drag else none
  match mask with
  | none => .none
  | some t =>
    if !(g.keys.any fun k => k.mouse t) then .none
    else if left || right || drag then
      .seq (csi ([36] ++ Color.digits m.x ++ [59] ++ Color.digits m.y ++
        [if drag then 77 else if right then 82 else if m.double then 68 else 76]))
    else if wheel then
      let d := (0 - m.delta).tdiv 120
      .seq (csi ([36] ++ Color.digits (d.natAbs * g.wheelLines % 4294967296) ++ [if d < 0 then 65 else 66]))
    else
      let d := m.delta.tdiv 32
      .seq (csi ([36] ++ Color.digits d.natAbs ++ [if d < 0 then 60 else 62]))

def processMouse (g : Cfg) (s : St) (m : Mouse) : St :=
  { s with prevLeft := m.left, prevRight := m.right }.apply (mouseAct g s.prevLeft s.prevRight m)

/-- The bytes in the buffer from the head on. -/
def St.chord (s : St) (n : Nat) : List Nat := (List.range n).map fun i => s.buf.getD ((s.head + i) % 16) 0

/-- A `char` that becomes an `uint32`. -/
def signExtend (b : Nat) : Nat := if b < 128 then b else 0xFFFFFF00 + b

/-- `filter_unbound_input`, terminal/src/win_terminal_in.cpp:1876-1917. -/
def filterUnbound (g : Cfg) (s : St) (count : Nat) : St :=
  match g.keys with
  | none => s
  | some t =>
    if s.count ≤ count then s
    else
      let chord := s.chord (s.count - count)
      match t.translate chord with
      | some l => (l.map signExtend).foldl pushVal { s with count := count }
      | none => if t.bound chord then s else { s with count := count }

/-- `process_record`, terminal/src/win_terminal_in.cpp:1082-1137. -/
def processRecord (g : Cfg) (s : St) (r : Record) : St × Bool :=
  let done (s' : St) (ret : Bool) : St × Bool :=
    (if s'.sending then { s' with processed := s'.processed ++ [r] } else s', decide (s'.count > s.count) || ret)
  match r with
  | .key k => done (filterUnbound g (processKey g s k) s.count) false
  | .mouse m => done (processMouse g s m) false
  | .size c => done s c
  | .other => (s, false)

/-- `translate_special_input_bytes`, terminal/src/win_terminal_in.cpp:567-576: what `read` returns. -/
inductive Out where
  | none | abort | exit | resize
  | byte (b : Nat)
deriving Repr, DecidableEq

def special (b : Nat) : Out := if b = 0xFE then .none else if b = 0xFF then .abort else if b = 0xFD then .exit else .byte b

/-- What `peek_record` does with a state after the record was processed. -/
def revert (s s' : St) : St := { s' with count := s.count, lead := if s.lead ≠ 0 then s.lead else s'.lead }

/-- `peek_record`, terminal/src/win_terminal_in.cpp:1039-1079.  The last part is
`*peeked`, or `none` if nothing is stored there. -/
def peekRecord (g : Cfg) (s : St) (r : Record) : St × Bool × Option Out :=
  let look (s' : St) : St × Bool × Option Out :=
    let ret := decide (s'.count > s.count)
    (revert s s', ret, some (if ret then special (s'.buf.getD s'.head 0) else .none))
  match r with
  | .key k => look (processKey g s k)
  | .mouse m => look (processMouse g s m)
  | .size _ => (s, true, none)
  | .other => (s, false, none)

/-- The loop of `read_console` with `peek`, terminal/src/win_terminal_in.cpp:1185-1304.  The first list has the records
that come in time, the second one those that come later. -/
def peekLoop (g : Cfg) (s : St) : List Record → List Record → St
  | [], later => { s with queue := later }
  | r :: q, later =>
    if (peekRecord g s r).2.1 then { (peekRecord g s r).1 with pending := [r], queue := q ++ later }
    else peekLoop g (peekRecord g s r).1 q later

/-- The loop of `read_console` without `peek`. -/
def readLoop (g : Cfg) (s : St) : List Record → List Record → St
  | [], later => { s with queue := later }
  | r :: q, later =>
    if (processRecord g s r).2 then { (processRecord g s r).1 with queue := q ++ later }
    else readLoop g (processRecord g s r).1 q later

/-- `available`, terminal/src/win_terminal_in.cpp:672-698, with `read_console` for a peek (lines 1140-1304).  `n` records
come before the time is up. -/
def available (g : Cfg) (s : St) (n : Nat) : St × Bool :=
  if s.count > 0 ∨ s.pending ≠ [] then (s, true)
  else
    let s := peekLoop g s (s.queue.take n) (s.queue.drop n)
    (s, s.pending ≠ [])

/-- `select`, terminal/src/win_terminal_in.cpp:701-705, with `read_console`.  `checks` has one number for every time that
a callback (`on_idle`, `on_wait_event`) asks whether there is input before the record comes that ends the wait: it is how
many records come until then. -/
def select (g : Cfg) (s : St) (checks : List Nat) (n : Nat) : St :=
  if s.count > 0 then s
  else
    match s.pending with
    | r :: p => (processRecord g { s with pending := p } r).1
    | [] =>
      let s := checks.foldl (fun s m => (available g s m).1) s
      if s.count ≠ 0 then s else readLoop g s (s.queue.take n) (s.queue.drop n)

/-- `read`, terminal/src/win_terminal_in.cpp:711-735; `resized` is whether the terminal has another size than at the last
call. -/
def read (g : Cfg) (s : St) (resized : Bool) : St × Out :=
  if resized then (s, .resize)
  else
    let s := if s.count = 0 then
        match s.pending with
        | r :: p => (processRecord g { s with pending := p } r).1
        | [] => s
      else s
    if s.count = 0 then (s, .none) else ((pop s).1, special (pop s).2)

/-- `peek`, terminal/src/win_terminal_in.cpp:738-754; `none` if an uninitialised value is returned. -/
def peek (g : Cfg) (s : St) : St × Option Out :=
  if s.count ≠ 0 then (s, some (special (s.buf.getD s.head 0)))
  else
    match s.pending with
    | r :: _ => ((peekRecord g s r).1, if (peekRecord g s r).2.1 then (peekRecord g s r).2.2 else some .none)
    | [] => (s, some .none)

/-- What is called from outside. -/
inductive Op where
  | available (n : Nat)
  | select (checks : List Nat) (n : Nat)
  | read (resized : Bool)
  | peek
deriving Repr, DecidableEq

/-- One call; the last part is what `read` returned. -/
def step (g : Cfg) (s : St) : Op → St × Option Out
  | .available n => ((available g s n).1, none)
  | .select checks n => (select g s checks n, none)
  | .read resized => ((read g s resized).1, some (read g s resized).2)
  | .peek => ((peek g s).1, none)

def run (g : Cfg) : St → List Op → St × List Out
  | s, [] => (s, [])
  | s, o :: os =>
    let r := step g s o
    let t := run g r.1 os
    (t.1, r.2.toList ++ t.2)

end Clink.TermIn
