import Verif.Model.TermIn
import Verif.Model.Ecma48
/-
Model of requests to the terminal: `send_terminal_request` and `is_matching_response` in
clink/terminal/src/win_terminal_in.cpp.

Left out: the checks of the console and of the strings at the start (lines 840-868: the prefix begins with ESC; `fin` is
the final character for CSI and `none` for the others), the output of the request, and the clock: the number of records
that come before a time is up is a parameter.  `is_matching_response` compares the prefix with code points, here with
bytes, which is the same for an ASCII prefix.
-/
namespace Clink.TermReq
open Clink.TermIn

/-- `is_final_byte` for the end of a text, terminal/src/win_terminal_in.cpp:756-762.  (For a text of one backslash the code
reads what is in front of the text; here that is no ESC.) -/
def isFinal (fin : Option Nat) (l : List Nat) : Bool :=
  match fin with
  | some f => l.getLast? == some f
  | none => l.getLast? != some 7 && !(l.getLast? == some 92 && l.dropLast.getLast? == some 27)

/-- The comparison with the prefix, terminal/src/win_terminal_in.cpp:783-795: up to the end of the shorter one. -/
def starts : List Nat → List Nat → Bool
  | p :: ps, c :: cs => p == c && starts ps cs
  | _, _ => true

/-- The loop of `is_matching_response`, terminal/src/win_terminal_in.cpp:764-818, from `l` on, which is the end of a text of
length `n`: the code, and where it is thought to begin and to end. -/
def findCode (pre : List Nat) (fin : Option Nat) (n : Nat) (s : Ecma48.State) (nested : Nat) (l : List Nat) :
    Option (List Nat × Nat × Nat) :=
  match Ecma48.nextCode s nested l with
  | (none, _, _, _) => none
  | (some p, s', n', l') =>
    if p.typ = some .c1 ∧ starts pre p.text ∧ isFinal fin p.text then some (p.text, n - l.length, n - l.length + p.text.length)
    else if l'.length < l.length then findCode pre fin n s' n' l' else none
termination_by l.length

/-- `InputRecordCorrelation`, terminal/src/win_terminal_in.cpp:910-915: the index of the record, the index in the text and
the number of bytes (both of 16 bits). -/
structure Cor where
  record : Nat
  stream : Nat
  chars : Nat
deriving Repr, DecidableEq

/-- The records that are kept, terminal/src/win_terminal_in.cpp:944-970. -/
def erase (cors : List Cor) (records : List Record) (b e : Nat) : List Record :=
  match cors.findIdx? (fun c => c.stream + c.chars > b) with
  | none => records
  | some i =>
    let at_ := (cors.getD i ⟨0, 0, 0⟩).record
    records.take at_ ++ records.drop (at_ + ((cors.drop i).takeWhile fun c => c.stream < e).length)

/-- `while (m_buffer_count) pop()`. -/
def drain : Nat → St → St × List Nat
  | 0, s => (s, [])
  | n + 1, s => if s.count = 0 then (s, []) else ((drain n (pop s).1).1, (pop s).2 :: (drain n (pop s).1).2)

/-- `read_console(nullptr, 0, false)` when a record is pending, terminal/src/win_terminal_in.cpp:1147-1156. -/
def takePending (g : Cfg) (s : St) : St :=
  match s.pending with
  | r :: p => (processRecord g { s with pending := p } r).1
  | [] => s

/-- The loop, terminal/src/win_terminal_in.cpp:922-973.  `old` is the number of records that were pending before; in round
`i`, `time i` records come before the time is up.  The first argument bounds the number of rounds. -/
def ask (g : Cfg) (pre : List Nat) (fin : Option Nat) (old : Nat) (time : Nat → Nat) : Nat → Nat → St → List Nat → List Cor → St × List Nat
  | 0, _, s, _, _ => (s, [])
  | n + 1, i, s, input, cors =>
    let a := available g s (time i)
    if a.2 ∧ old + a.1.processed.length < 16384 then
      let d := drain 16 (takePending g a.1)
      let input' := input ++ d.2
      let cors' := cors ++ [⟨a.1.processed.length, input.length % 65536, (input'.length - input.length % 65536) % 65536⟩]
      if input' ≠ [] ∧ isFinal fin input' then
        match findCode pre fin input'.length {} 0 input' with
        | some (text, b, e) => ({ d.1 with processed := erase cors' d.1.processed b e }, text)
        | none => ask g pre fin old time n (i + 1) d.1 input' cors'
      else ask g pre fin old time n (i + 1) d.1 input' cors'
    else (a.1, [])

/-- `send_terminal_request`, terminal/src/win_terminal_in.cpp:832-994, after the checks: the state, and the answer (empty if
there is none).  `first` records come before the first time is up. -/
def request (g : Cfg) (pre : List Nat) (fin : Option Nat) (first : Nat) (time : Nat → Nat) (s : St) : St × List Nat :=
  if s.pending.length ≥ 15360 then (s, [])
  else
    let s1 := { s with pending := [], processed := [], head := 0, count := 0, lead := 0, sending := true }
    let a := available g s1 first
    let r := if a.2 then ask g pre fin s.pending.length time (s.queue.length + 1) 0 { a.1 with force := true } [] [] else (a.1, [])
    ({ r.1 with buf := s.buf, head := s.head, count := s.count, lead := s.lead, processed := s.processed, sending := false, force := false,
                pending := s.pending ++ r.1.processed ++ r.1.pending }, r.2)

end Clink.TermReq
