/-
Model of `linear_allocator` (clink/core/src/linear_allocator.cpp,
clink/core/include/core/linear_allocator.h), 64-bit build (`sizeof(m_ptr) = 8`).

The heap pages owned by the allocator are kept with their contents.  A pointer is a page
identity and an offset.  The chain pointer stored by the code in the first 8 bytes of each
page is modelled by (a) the order of the list `pages` (head = `m_ptr`) and (b) overwriting
those 8 bytes with arbitrary bytes whenever the code stores a link there, so that clobbering
of user data would be visible.  `malloc` may fail (Boolean arguments) and returns memory
with arbitrary contents that does not overlap live pages (fresh identity).
Not modelled: `uint32` wrap-around in `m_used + size` (needs page sizes above 2^31), the
DEBUG footprint counter, and move assignment.
-/
namespace Clink.LinearAlloc

/-- A pointer into page `page` at byte `off`. -/
structure Ptr where
  page : Nat
  off : Nat
deriving Repr, DecidableEq

/-- Fields of `linear_allocator`, core/include/core/linear_allocator.h:32-34, plus the heap
pages reachable from `m_ptr` in chain order, and `fresh`, the next page identity. -/
structure Alloc where
  max : Nat
  used : Nat
  pages : List (Nat × List Nat)
  fresh : Nat
deriving Repr, DecidableEq

/-- Constructor, core/src/linear_allocator.cpp:12-17. -/
def init (size : Nat) : Alloc := { max := size, used := size, pages := [], fresh := 0 }

/-- `oversized(size)`, core/include/core/linear_allocator.h:68-71. -/
def oversized (a : Alloc) (size : Nat) : Bool := decide (size + 8 > a.max)

/-- `fits(size)`, core/include/core/linear_allocator.h:62-65. -/
def fits (a : Alloc) (size : Nat) : Bool := decide (a.used + size ≤ a.max)

/-- Contents of fresh memory of `n` bytes (arbitrary). -/
def rawPage (junk : Nat → Nat) (n : Nat) : List Nat := (List.range n).map junk

/-- Storing a chain pointer into the first 8 bytes of a page (some 8 bytes). -/
def setLink (link : Nat → Nat) (m : List Nat) : List Nat := (List.range 8).map link ++ m.drop 8

/-- `new_page()`, core/src/linear_allocator.cpp:84-101. `ok` = malloc succeeds. -/
def newPage (junk : Nat → Nat) (link : Nat → Nat) (ok : Bool) (a : Alloc) : Option Alloc :=
  if a.max < 8 then none
  else if !ok then none
  else some { a with
    pages := (a.fresh, setLink link (rawPage junk a.max)) :: a.pages
    used := 8
    fresh := a.fresh + 1 }

/-- `alloc(size)`, core/src/linear_allocator.cpp:41-69.  `ok1`: the malloc inside `new_page`
succeeds, `ok2`: the malloc of an oversized block succeeds.  A `new_page` that succeeded
before a failing oversized malloc stays. -/
def alloc (junk : Nat → Nat) (link : Nat → Nat) (ok1 ok2 : Bool) (a : Alloc) (size : Nat) :
    Alloc × Option Ptr :=
  if size = 0 then (a, none)
  else if oversized a size then
    match (if a.pages = [] then newPage junk link ok1 a else some a) with
    | none => (a, none)
    | some a =>
      if !ok2 then (a, none)
      else match a.pages with
        | [] => (a, none)
        | (hid, hm) :: rest =>
          -- the new block points to the head's successor, the head points to the new block
          ({ a with
              pages := (hid, setLink link hm) :: (a.fresh, setLink link (rawPage junk (size + 8))) :: rest
              fresh := a.fresh + 1 },
            some ⟨a.fresh, 8⟩)
  else
    match (if fits a size then some a else newPage junk link ok1 a) with
    | none => (a, none)
    | some a =>
      match a.pages with
      | [] => (a, none)
      | (hid, _) :: _ => ({ a with used := a.used + size }, some ⟨hid, a.used⟩)

/-- Write bytes through a pointer (`memcpy` by the caller or by `store`); a write outside
any live page is UB and yields `none`. -/
def poke (a : Alloc) (p : Ptr) (bs : List Nat) : Option Alloc :=
  if ∃ q ∈ a.pages, q.1 = p.page ∧ p.off + bs.length ≤ q.2.length then
    some { a with pages := a.pages.map (fun q =>
      if q.1 = p.page then (q.1, q.2.take p.off ++ bs ++ q.2.drop (p.off + bs.length)) else q) }
  else none

/-- Read `n` bytes; `none` is UB. -/
def peek (a : Alloc) (p : Ptr) (n : Nat) : Option (List Nat) :=
  match a.pages.find? (fun q => q.1 = p.page) with
  | none => none
  | some q => if p.off + n ≤ q.2.length then some ((q.2.drop p.off).take n) else none

/-- `store(str)`, core/src/linear_allocator.cpp:72-81.  `str = none` is a null pointer: the
size is then 1 and `memcpy(ret, nullptr, 1)` is undefined behaviour (outer `none`). -/
def store (junk : Nat → Nat) (link : Nat → Nat) (ok1 ok2 : Bool) (a : Alloc) (str : Option (List Nat)) :
    Option (Alloc × Option Ptr) :=
  match str with
  | none =>
    match alloc junk link ok1 ok2 a 1 with
    | (a, none) => some (a, none)
    | (_, some _) => none
  | some s =>
    match alloc junk link ok1 ok2 a (s.length + 1) with
    | (a, none) => some (a, none)
    | (a, some p) => (poke a p (s ++ [0])).map (fun a => (a, some p))

/-- `free_chain(keep_one)`, core/src/linear_allocator.cpp:104-128. -/
def freeChain (link : Nat → Nat) (keepOne : Bool) (a : Alloc) : Alloc :=
  match a.pages with
  | [] => { a with used := a.max, pages := [] }
  | (hid, hm) :: _ =>
    if keepOne then { a with used := 8, pages := [(hid, setLink link hm)] }
    else { a with used := a.max, pages := [] }

/-- `reset()`, core/include/core/linear_allocator.h:41-44. -/
def reset (link : Nat → Nat) (a : Alloc) : Alloc := freeChain link true a
/-- `clear()`, core/include/core/linear_allocator.h:47-50. -/
def clear (link : Nat → Nat) (a : Alloc) : Alloc := freeChain link false a

end Clink.LinearAlloc
