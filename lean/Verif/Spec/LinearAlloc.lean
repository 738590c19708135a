import Verif.Model.LinearAlloc
/- Specification vocabulary for C06: a client of the arena that remembers the blocks it was
given since the last reset. -/
namespace Clink.LinearAlloc

/-- A block handed out: pointer and size. -/
structure Block where
  ptr : Ptr
  size : Nat
deriving Repr, DecidableEq

/-- Two blocks share no byte. -/
def Disjoint (b c : Block) : Prop :=
  b.ptr.page ≠ c.ptr.page ∨ b.ptr.off + b.size ≤ c.ptr.off ∨ c.ptr.off + c.size ≤ b.ptr.off

/-- The block lies inside memory owned by the allocator. -/
def Inside (a : Alloc) (b : Block) : Prop :=
  ∃ m, (b.ptr.page, m) ∈ a.pages ∧ b.ptr.off + b.size ≤ m.length

/-- The allocator together with the client's list of live blocks (newest first). -/
structure World where
  a : Alloc
  blocks : List Block

/-- What the environment decides for one request: contents of fresh memory, link bytes and
whether the two possible `malloc` calls succeed. -/
structure Env where
  junk : Nat → Nat
  link : Nat → Nat
  ok1 : Bool
  ok2 : Bool

/-- Requests of the client.  `write` stores bytes into a block it owns. -/
inductive Op where
  | alloc (e : Env) (size : Nat)
  | store (e : Env) (str : List Nat)
  | write (b : Block) (off : Nat) (bs : List Nat)
  | reset (e : Env)
  | clear (e : Env)

/-- One request; `none` is undefined behaviour. -/
def step (w : World) : Op → Option World
  | .alloc e n =>
    match alloc e.junk e.link e.ok1 e.ok2 w.a n with
    | (a, none) => some { w with a := a }
    | (a, some p) => some { a := a, blocks := ⟨p, n⟩ :: w.blocks }
  | .store e s =>
    match store e.junk e.link e.ok1 e.ok2 w.a (some s) with
    | none => none
    | some (a, none) => some { w with a := a }
    | some (a, some p) => some { a := a, blocks := ⟨p, s.length + 1⟩ :: w.blocks }
  | .write b off bs => (poke w.a ⟨b.ptr.page, b.ptr.off + off⟩ bs).map (fun a => { w with a := a })
  | .reset e => some { a := reset e.link w.a, blocks := [] }
  | .clear e => some { a := clear e.link w.a, blocks := [] }

/-- The client writes only inside blocks it was given. -/
def OpOk (w : World) : Op → Prop
  | .write b off bs => b ∈ w.blocks ∧ off + bs.length ≤ b.size
  | _ => True

/-- A history of requests that respects `OpOk`. -/
inductive Runs : World → List Op → World → Prop where
  | nil (w) : Runs w [] w
  | cons {w w' w'' op ops} (h : OpOk w op) (hs : step w op = some w') (hr : Runs w' ops w'') :
      Runs w (op :: ops) w''

/-- The request neither recycles the arena nor writes into block `b`. -/
def Leaves (b : Block) : Op → Prop
  | .reset _ => False
  | .clear _ => False
  | .write c _ _ => c ≠ b
  | _ => True

end Clink.LinearAlloc
