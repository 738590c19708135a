import Verif.Model.TermIn
import Verif.Spec.Utf
/-
What should be read when keys are pressed.
-/
namespace Clink.TermIn.Spec
open Clink.Utf (specUtf8 specUtf16 IsText)

/-- What is left of the bytes of one key: keys that are not bound are dropped, some keys are replaced. -/
def heard (t : Option Tester) (c : List Nat) : List Nat :=
  if c = [] then []
  else
    match t with
    | none => c
    | some t =>
      match t.translate c with
      | some l => l
      | none => if t.bound c then c else []

/-- The keys that take the place of others are plain ASCII, and there is room for them. -/
def Plain (t : Option Tester) : Prop :=
  ∀ k, t = some k → ∀ c l, k.translate c = some l → l.length ≤ 16 ∧ ∀ b ∈ l, b < 128

def Lead (u : Nat) : Prop := 0xD800 ≤ u ∧ u ≤ 0xDBFF
def Trail (u : Nat) : Prop := 0xDC00 ≤ u ∧ u ≤ 0xDFFF
def Unit (u : Nat) : Prop := u < 0x10000 ∧ ¬ (0xD800 ≤ u ∧ u ≤ 0xDFFF)

/-- A code point from its two surrogates (Unicode, D91). -/
def pair (hi lo : Nat) : Nat := 0x10000 + (hi - 0xD800) * 1024 + (lo - 0xDC00)

/-- Records that give no input: keys released, modifiers, mouse input that nobody wants, changes of the size. -/
def Quiet (g : Cfg) : Record → Prop
  | .key k => act g false true k = .none
  | .mouse _ => ∀ t, g.keys = some t → ∀ m, t.mouse m = false
  | .size _ => True
  | .other => True

/-- `Gives g l rs bs`: the records `rs` give the bytes `bs`, if the last record before was the first half `l` of a pair
(0 if it was not).  A first half has a second one. -/
inductive Gives (g : Cfg) : Nat → List Record → List Nat → Prop
  | nil : Gives g 0 [] []
  | quiet {l : Nat} {r : Record} {rs : List Record} {bs : List Nat} (h : Quiet g r) (hr : Gives g l rs bs) : Gives g l (r :: rs) bs
  | seq {k : Key} {s : List Nat} {rs : List Record} {bs : List Nat} (h : act g false true k = .seq s) (hr : Gives g 0 rs bs) :
      Gives g 0 (.key k :: rs) (heard g.keys s ++ bs)
  | chars {k : Key} {cs : List Nat} {rs : List Record} {bs : List Nat} (h : act g false true k = .chars cs)
      (hc : ∀ c ∈ cs, Unit c) (hr : Gives g 0 rs bs) : Gives g 0 (.key k :: rs) (heard g.keys (cs.flatMap specUtf8) ++ bs)
  | lead {k : Key} {hi : Nat} {rs : List Record} {bs : List Nat} (h : act g false true k = .chars [hi]) (hh : Lead hi)
      (hr : Gives g hi rs bs) : Gives g 0 (.key k :: rs) bs
  | trail {k : Key} {hi lo : Nat} {rs : List Record} {bs : List Nat} (h : act g false true k = .chars [lo]) (hh : Lead hi)
      (hl : Trail lo) (hr : Gives g 0 rs bs) : Gives g hi (.key k :: rs) (heard g.keys (specUtf8 (pair hi lo)) ++ bs)
  | exit {k : Key} {rs : List Record} {bs : List Nat} (h : act g false true k = .exit) (hr : Gives g 0 rs bs) :
      Gives g 0 (.key k :: rs) (heard g.keys [0xFD] ++ bs)

/-- The results of `read` that are input. -/
def inputs (l : List Out) : List Out := l.filter fun o => o != .none && o != .resize

/-- No callback asks for input while `select` waits. -/
def Calm : Op → Prop
  | .select checks _ => checks = []
  | _ => True

/-- Rounds of the loop of a reader: wait (`n` records come in time), then read. -/
def rounds (n : Nat) : Nat → List Op
  | 0 => []
  | m + 1 => .select [] n :: .read false :: rounds n m

/-- A key that types the UTF-16 unit `u`: without ctrl and alt, or with AltGr (for which Windows sets ctrl too).  The
virtual key is not one of those with a meaning of their own (backspace, tab, enter, shift, ctrl, the Windows keys, F1 to
F12), and not space with shift. -/
structure Types (k : Key) (u : Nat) : Prop where
  down : k.down = true
  ch : k.ch = u
  printable : 32 ≤ u ∧ u ≠ 127
  vk : k.vk ≠ 8 ∧ k.vk ≠ 9 ∧ k.vk ≠ 13 ∧ k.vk ≠ 16 ∧ k.vk ≠ 17 ∧ k.vk ≠ 0x5B ∧ k.vk ≠ 0x5C ∧ ¬ (0x70 ≤ k.vk ∧ k.vk ≤ 0x7B)
  space : k.vk = 32 → u = 32 → k.flags.shift = false ∧ k.flags.ctrl = false
  flags : (k.flags.ctrl = false ∧ k.flags.alt = false) ∨ (k.flags.ctrl = true ∧ k.flags.ralt = true)

/-- Records that can come between the keys of a text: keys released (but not Alt with a character, which is how text comes
from the number pad), modifiers pressed. -/
inductive Noise : Record → Prop
  | up {k : Key} (h : k.down = false) (hv : k.vk ≠ 18) : Noise (.key k)
  | modifier {k : Key} (h : k.vk = 16 ∨ k.vk = 17 ∨ k.vk = 0x5B ∨ k.vk = 0x5C ∨ (k.vk = 18 ∧ k.ch = 0)) : Noise (.key k)

/-- `Text us rs`: the records `rs` type the units `us`. -/
inductive Text : List Nat → List Record → Prop
  | nil : Text [] []
  | noise {r : Record} {us : List Nat} {rs : List Record} (h : Noise r) (hr : Text us rs) : Text us (r :: rs)
  | key {k : Key} {u : Nat} {us : List Nat} {rs : List Record} (h : Types k u) (hr : Text us rs) : Text (u :: us) (.key k :: rs)

/-- Whoever asks for keys takes text. -/
def TakesText (t : Option Tester) : Prop :=
  ∀ k, t = some k → ∀ c, IsText c → 32 ≤ c → c ≠ 127 → k.translate (specUtf8 c) = none ∧ k.bound (specUtf8 c) = true

/-- The number for the modifiers that xterm uses. -/
def xterm (f : Flags) : Nat := 1 + (if f.shift then 1 else 0) + (if f.alt then 2 else 0) + (if f.ctrl then 4 else 0)

/-- `ESC [ 1 ; m X`, or `ESC [ X` without modifiers. -/
def xtermLetter (x : Nat) (f : Flags) : List Nat :=
  if xterm f = 1 then [27, 91, x] else [27, 91, 49, 59, 48 + xterm f, x]
/-- `ESC [ n ; m ~`, or `ESC [ n ~` without modifiers. -/
def xtermTilde (n : List Nat) (f : Flags) : List Nat :=
  if xterm f = 1 then [27, 91] ++ n ++ [126] else [27, 91] ++ n ++ [59, 48 + xterm f, 126]


/-- Up, down, right, left, Home and End, and the letters of their sequences. -/
def cursorKeys : List (Nat × Nat) := [(38, 65), (40, 66), (39, 67), (37, 68), (36, 72), (35, 70)]
/-- Insert, Delete, Page up and Page down, F5 to F12, and the numbers of their sequences. -/
def editKeys : List (Nat × List Nat) := [(45, [50]), (46, [51]), (33, [53]), (34, [54])]
def functionKeys : List (Nat × List Nat) :=
  [(0x74, [49, 53]), (0x75, [49, 55]), (0x76, [49, 56]), (0x77, [49, 57]), (0x78, [50, 48]), (0x79, [50, 49]), (0x7A, [50, 51]),
    (0x7B, [50, 52])]

def withoutAlt (f : Flags) : Flags := { f with lalt := false, ralt := false }

/-- What F1 to F12 send: as in xterm, but ESC comes first for alt. -/
def functionSeq (vk : Nat) (f : Flags) : List Nat :=
  (if f.alt then [27] else []) ++
    match functionKeys.find? fun e => e.1 = vk with
    | some e => xtermTilde e.2 (withoutAlt f)
    | none => if xterm (withoutAlt f) = 1 then [27, 79, 80 + (vk - 0x70)] else xtermLetter (80 + (vk - 0x70)) (withoutAlt f)

/-- What cursor keys and the like, and function keys send. -/
def keySeq (vk : Nat) (f : Flags) : Option (List Nat) :=
  match cursorKeys.find? fun e => e.1 = vk with
  | some e => some (xtermLetter e.2 f)
  | none =>
    match editKeys.find? fun e => e.1 = vk with
    | some e => some (xtermTilde e.2 f)
    | none => if 0x70 ≤ vk ∧ vk ≤ 0x7B then some (functionSeq vk f) else none

/-- `CSI 27 ; modifiers ; key ~`, for keys that terminals have no sequence for (modifyOtherKeys). -/
def otherSeq (key : List Nat) (f : Flags) : List Nat := [27, 91, 50, 55, 59, 48 + xterm f, 59] ++ key ++ [126]

/-- What Backspace, Tab, Enter and Space send.  Tab and Space with alt are for the system. -/
def editingSeq (vk : Nat) (f : Flags) : Option (List Nat) :=
  if vk = 8 then some (if f.shift then otherSeq [56] f else (if f.alt then [27] else []) ++ [if f.ctrl then 127 else 8])
  else if vk = 9 then some (if f.alt then [] else if f.ctrl then otherSeq [57] f else if f.shift then [27, 91, 90] else [9])
  else if vk = 13 then some (if f.alt ∨ f.ctrl ∨ f.shift then otherSeq [49, 51] f else [13])
  else if vk = 32 then some (if f.alt then [] else if f.ctrl ∨ f.shift then otherSeq [51, 50] f else [32])
  else none

/-- The character that comes with these keys. -/
def editingChar (vk : Nat) (f : Flags) (ch : Nat) : Prop :=
  (vk = 8 ∧ ch = if f.ctrl then 127 else 8) ∨ (vk = 9 ∧ (ch = 9 ∨ ch = 0)) ∨ (vk = 13 ∧ ch = if f.ctrl then 10 else 13) ∨
    (vk = 32 ∧ (ch = 32 ∨ ch = 0))

end Clink.TermIn.Spec
