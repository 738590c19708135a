import Verif.Model.Doskey

/-!
Model of the queue of input lines.
Sources: clink/lib/src/line_queue.cpp, clink/lib/include/lib/line_queue.h.

Simplified: strings have no size limit.
-/

namespace Clink.LineQueue

open Utf (toUtf8 toUtf16)
open Doskey (Lookup)

/-- `dequeue_flags`, lib/include/lib/line_queue.h:12-19. -/
structure Flags where
  hide : Bool := false
  show_ : Bool := false
  edit : Bool := false
  nodoskey : Bool := false
  deriving DecidableEq, Repr

/-- `queued_line`, lib/include/lib/line_queue.h:28-36. -/
structure Line where
  text : List Nat
  wide : List Nat := []
  cursor : Nat := 0
  flags : Flags
  deriving DecidableEq, Repr

/-- `strip_line_endings`, lib/src/line_queue.cpp:11-21. -/
def strip (l : List Nat) : List Nat := (l.reverse.dropWhile fun c => c == 13 || c == 10).reverse

/-- `ensure_crlf`, lib/src/line_queue.cpp:24-28. -/
def crlf (l : List Nat) : List Nat := strip l ++ [13, 10]

/-- The test for text without a line feed at the end, lib/src/line_queue.cpp:51 and 107. -/
def unfinished (l : List Nat) : Bool := l ≠ [] ∧ l.getLast? ≠ some 10

/-- `line_queue::enqueue_back`, lib/src/line_queue.cpp:43-68, for a pointer that is not null. -/
def enqueueBack (q : List Line) (text : List Nat) : List Line :=
  if text = [] then q
  else match q.getLast? with
    | none => q ++ [{ text := text, flags := { show_ := true } }]
    | some back =>
      if unfinished back.text then
        q.dropLast ++ [{ back with text := back.text ++ text,
                                   wide := if back.cursor > 0 then back.wide ++ (toUtf16 none text).out else back.wide }]
      else q ++ [{ text := text, flags := { show_ := true } }]

/-- `line_queue::enqueue_front`, lib/src/line_queue.cpp:71-90. -/
def enqueueFront (q : List Line) (ls : List Line) : List Line :=
  ls.reverse.foldl (fun q l => { l with text := crlf l.text, flags := { l.flags with edit := false } } :: q) q

/-- `line_queue::dequeue_line`, lib/src/line_queue.cpp:93-139: the text and the flags, or none and the flags,
and the queue.  `out` is what the string passed by the caller contains.  The outer `none`: alias resolution does
not end or has undefined behaviour. -/
def dequeueLine (lookup : Lookup) (enh : Bool) (q : List Line) (out : List Nat) : Option (Option (List Nat) × Flags × List Line) :=
  match q with
  | [] => some (none, { show_ := true, edit := true }, [])
  | front :: rest =>
    let o := if front.cursor ≠ 0 then out ++ (toUtf8 none (front.wide.drop front.cursor)).out else front.text
    let flags := if unfinished front.text then { front.flags with edit := true } else front.flags
    if front.cursor = 0 ∧ flags.hide = false ∧ flags.show_ = false ∧ flags.nodoskey = false then
      match Doskey.resolve lookup enh (strip front.text) with
      | none => none
      | some none => some (some (crlf o), flags, rest)
      | some (some t) =>
        match Doskey.lines t with
        | [] => some (some (crlf o), flags, rest)
        | a :: as =>
          let queue := as.foldl (fun q l => l :: q) []
          some (some (crlf a), flags,
            queue.foldl (fun q l => { text := l, flags := { hide := true, nodoskey := true } } :: q) rest)
    else some (some (crlf o), flags, rest)

/-- `line_queue::dequeue_char`, lib/src/line_queue.cpp:142-164: the unit and `new_line`, and the queue.
`to_utf16` appends. -/
def dequeueChar (q : List Line) : Option (Nat × Bool) × List Line :=
  match q with
  | [] => (none, [])
  | front :: rest =>
    let wide := if front.cursor = 0 then front.wide ++ (toUtf16 none front.text).out else front.wide
    let newLine := front.cursor = 0 ∧ front.text ≠ [] ∧ front.text.getLast? = some 10
    if front.cursor ≥ wide.length then (none, { front with wide := wide } :: rest)
    else
      (some (wide.getD front.cursor 0, newLine),
        if front.cursor + 1 ≥ wide.length then rest else { front with wide := wide, cursor := front.cursor + 1 } :: rest)

/-- `line_queue::incomplete`, lib/src/line_queue.cpp:173-180. -/
def incomplete (q : List Line) : Bool :=
  match q with
  | [front] => front.text = [] ∨ front.text.getLast? ≠ some 10
  | _ => true

end Clink.LineQueue
