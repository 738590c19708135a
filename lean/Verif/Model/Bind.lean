import Mathlib.Data.Nat.Notation

/-!
Model of key bindings.
Sources: clink/lib/src/binder.h, binder.cpp, bind_resolver.cpp, input_params.cpp.

The nodes are a function from indices.  Bit fields hold what is stored in them, as indices are less than 512 and modules less
than 32; only `depth` is cut off.  A node of a group (which the code stores in the same array, with another layout) has its own
fields.  Modules are numbers.  Loops have fuel: they go through at most 512 nodes, so if the fuel is used up they do not end;
this is `none`.
-/

namespace Clink.Bind

/-- `binder::node` and `binder::group_node`, lib/src/binder.h:38-60. -/
structure Node where
  isGroup : Bool := false
  next : Nat := 0
  module : Nat := 0
  hasParams : Bool := false
  child : Nat := 0
  depth : Nat := 0
  bound : Bool := false
  key : Nat := 0
  id : Nat := 0
  hash : Nat := 0
  deriving DecidableEq, Repr

/-- `binder`, lib/src/binder.h:62-77. -/
structure Binder where
  nodes : Nat → Node
  nextNode : Nat
  modules : List Nat

def Binder.set (b : Binder) (i : Nat) (n : Node) : Binder := { b with nodes := fun j => if j = i then n else b.nodes j }

/-- lib/src/binder.h:36. -/
def size : Nat := 512

/-- Enough for any loop over the nodes that ends. -/
def fuel : Nat := 512 * 513

/-- `binder::binder`, lib/src/binder.cpp:107-119. -/
def Binder.start : Binder := ⟨fun i => if i = 0 then { isGroup := true } else {}, 2, []⟩

/-- `translate_chord`, lib/src/binder.cpp:15-89: the loop.  `room` is `SIZE - 1 - i`. -/
def translateLoop : (room : Nat) → List Nat → Option (List Nat)
  | 0, _ => some []
  | _ + 1, [] => some []
  | room + 1, 94 :: rest =>
    match rest with
    | [] => some [94]
    | c :: rest => (translateLoop room rest).map (c % 32 :: ·)
  | room + 1, 92 :: rest =>
    match rest with
    | [] => some [92]
    | 77 :: 45 :: 67 :: 45 :: rest =>
      match room, rest with
      | room + 1, c :: rest => (translateLoop room rest).map (27 :: c % 32 :: ·)
      | _, _ => none
    | 77 :: 45 :: c :: rest => (translateLoop room (c :: rest)).map (27 :: ·)
    | 77 :: _ => none
    | 67 :: 45 :: c :: rest => (translateLoop room rest).map (c % 32 :: ·)
    | 67 :: _ => none
    | 101 :: rest => (translateLoop room rest).map (27 :: ·)
    | 116 :: rest => (translateLoop room rest).map (9 :: ·)
    | 110 :: rest => (translateLoop room rest).map (10 :: ·)
    | 114 :: rest => (translateLoop room rest).map (13 :: ·)
    | 48 :: rest => (translateLoop room rest).map (0 :: ·)
    | c :: rest => (translateLoop room rest).map (c :: ·)
  | room + 1, c :: rest => (translateLoop room rest).map (c :: ·)

/-- A lone ESC, lib/src/binder.cpp:91-99. -/
def lone : List Nat → Bool
  | 27 :: 0 :: _ => true
  | [27] => true
  | _ => false

/-- `translate_chord`, lib/src/binder.cpp:15-102.  `esc` is `get_bindable_esc()`, a sequence of its own. -/
def translate (esc : Option (List Nat)) (text : List Nat) : Option (List Nat) :=
  match translateLoop 63 text with
  | none => none
  | some out =>
    if lone out then
      match esc with
      | some e => translateLoop 63 e
      | none => some out
    else some out

/-- `get_group`, lib/src/binder.cpp:122-140: the loop. -/
def Binder.getGroupLoop (b : Binder) (hash : Nat) : Nat → Nat → Option Int
  | 0, _ => none
  | f + 1, index =>
    if index = 0 then some (-1)
    else if (b.nodes index).hash = hash then some (index + 1)
    else b.getGroupLoop hash f (b.nodes index).next

/-- `get_group`, lib/src/binder.cpp:122-140.  The name is given by its hash, if it is not empty. -/
def Binder.getGroup (b : Binder) : Option Nat → Option Int
  | none => some 1
  | some hash => b.getGroupLoop hash fuel (b.nodes 0).next

/-- `alloc_nodes`, lib/src/binder.cpp:427-435. -/
def Binder.alloc (b : Binder) (count : Nat) : Option (Binder × Nat) :=
  if size < b.nextNode + count then none else some ({ b with nextNode := b.nextNode + count }, b.nextNode)

/-- `create_group`, lib/src/binder.cpp:143-173. -/
def Binder.createGroup (b : Binder) : Option Nat → Binder × Int
  | none => (b, -1)
  | some hash =>
    match b.alloc 2 with
    | none => (b, -1)
    | some (b, index) =>
      let b := b.set index { b.nodes index with isGroup := true, hash := hash, next := (b.nodes 0).next }
      let b := b.set 0 { b.nodes 0 with next := index }
      (b.set (index + 1) {}, index + 1)

def isDigit (key : Nat) : Bool := decide (48 ≤ key ∧ key ≤ 57)

/-- `find_child`, lib/src/binder.cpp:332-350: the loop. -/
def Binder.findChildLoop (b : Binder) (parent key : Nat) : Nat → Nat → Option Nat
  | 0, _ => none
  | f + 1, index =>
    if parent < index then
      let node := b.nodes index
      if node.key = key then some index
      else if node.hasParams && isDigit key then some index
      else b.findChildLoop parent key f node.next
    else some 0

/-- `find_child`, lib/src/binder.cpp:332-350. -/
def Binder.findChild (b : Binder) (parent key : Nat) : Option Nat :=
  if (b.nodes parent).hasParams && isDigit key then some parent else b.findChildLoop parent key fuel (b.nodes parent).child

/-- `find_tail`, lib/src/binder.cpp:381-387. -/
def Binder.findTail (b : Binder) : Nat → Nat → Option Nat
  | 0, _ => none
  | f + 1, head => if head < (b.nodes head).next then b.findTail f (b.nodes head).next else some head

/-- `add_child`, lib/src/binder.cpp:353-378. -/
def Binder.addChild (b : Binder) (parent key : Nat) (hasParams : Bool) : Option (Binder × Nat) :=
  match b.alloc 1 with
  | none => some (b, 0)
  | some (b, child) =>
    let addee : Node := { key := key, hasParams := hasParams, next := parent }
    if (b.nodes parent).child < parent then some ((b.set parent { b.nodes parent with child := child }).set child addee, child)
    else (b.findTail fuel (b.nodes parent).child).map fun tail => ((b.set tail { b.nodes tail with next := child }).set child addee, child)

/-- `insert_child`, lib/src/binder.cpp:320-329. -/
def Binder.insertChild (b : Binder) (parent key : Nat) (hasParams : Bool) : Option (Binder × Nat) :=
  (b.findChild parent key).bind fun child => if child ≠ 0 then some (b, child) else b.addChild parent key hasParams

/-- `append`, lib/src/binder.cpp:390-405. -/
def Binder.append (b : Binder) (head key : Nat) : Option (Binder × Nat) :=
  match b.alloc 1 with
  | none => some (b, 0)
  | some (b, index) =>
    (b.findTail fuel head).map fun tail =>
      let addee : Node := { key := key, next := (b.nodes tail).next }
      ((b.set tail { b.nodes tail with next := index }).set index addee, index)

/-- `add_module`, lib/src/binder.cpp:438-451. -/
def Binder.addModule (b : Binder) (module : Nat) : Option (Binder × Nat) :=
  if module ∈ b.modules then some (b, b.modules.idxOf module)
  else if b.modules.length < 32 then some ({ b with modules := b.modules ++ [module] }, b.modules.length)
  else none

/-- `bind`, lib/src/binder.cpp:230-235: the chord is added.  Node 0 means that there was no room. -/
def Binder.insert (b : Binder) (head : Nat) (hasParams : Bool) : List Nat → Option (Binder × Nat)
  | [] => some (b, head)
  | key :: keys => (b.insertChild head key (hasParams && key == 42)).bind fun (b, head) => if head = 0 then some (b, 0) else b.insert head hasParams keys

/-- `bind`, lib/src/binder.cpp:188-267: what follows the translation of the chord.  If the chord is empty and the group already
has a binding for it, then the character before `translated` is read: this is `none`.  The check for duplicates in lines
244-252 never runs, because `check > head` is false at the start. -/
def Binder.bindKeys (b : Binder) (group : Nat) (keys : List Nat) (module id : Nat) (hasParams : Bool) : Option (Binder × Bool) :=
  match b.addModule module with
  | none => some (b, false)
  | some (b, moduleIndex) =>
    (b.insert group hasParams keys).bind fun (b, head) =>
      if keys ≠ [] ∧ head = 0 then some (b, false)
      else
        (if (b.nodes head).bound then (keys.getLast?).bind (b.append head) else some (b, head)).map fun (b, head) =>
          if head = 0 then (b, false)
          else (b.set head { b.nodes head with module := moduleIndex, bound := true, depth := keys.length % 16, id := id }, true)

/-- `bind`, lib/src/binder.cpp:188-267. -/
def Binder.bind (b : Binder) (esc : Option (List Nat)) (group : Nat) (chord : List Nat) (module id : Nat) (hasParams : Bool) : Option (Binder × Bool) :=
  if size ≤ group then some (b, false)
  else
    match translate esc chord with
    | none => some (b, false)
    | some keys => b.bindKeys group keys module id hasParams

/-- A byte as `char`. -/
def char (k : Nat) : Int := if k < 128 then k else (k : Int) - 256

/-- `is_bound`, lib/src/binder.cpp:287-308: the search for a binding if there is no child. `c` is `*seq`. -/
def Binder.catchAll (b : Binder) (ctrl : Bool) (c : Int) : Nat → Nat → Option Int
  | 0, _ => none
  | f + 1, index =>
    if index = 0 then some 0
    else
      let node := b.nodes index
      if node.bound && (decide (node.key = 0) || decide ((node.key : Int) = c)) then
        some (if decide (node.key ≠ 0) || !ctrl then 1 else if node.id = 255 then -1 else 0)
      else b.catchAll ctrl c f node.next

/-- `is_bound`, lib/src/binder.cpp:274-317: the loop.  `after` is the byte at the end of the sequence. -/
def Binder.isBoundLoop (b : Binder) (ctrl : Bool) (after : Nat) (index : Nat) : List Nat → Option Int
  | [] => some 0
  | key :: keys =>
    (b.findChild index key).bind fun next =>
      if next = 0 then b.catchAll ctrl (char (keys.headD after)) fuel index
      else if keys = [] then some (if (b.nodes next).child = 0 then 1 else 0)
      else b.isBoundLoop ctrl after next keys

/-- `is_bound`, lib/src/binder.cpp:274-317. -/
def Binder.isBound (b : Binder) (group : Nat) (seq : List Nat) (after : Nat) : Option Int :=
  match seq with
  | [] => some 0
  | key :: _ => b.isBoundLoop (decide (key < 32 ∨ key = 127)) after group seq

/-- `input_params`, lib/include/lib/input_params.h. -/
structure Params where
  values : List Nat := []
  len : Int := 0
  deriving DecidableEq, Repr

/-- `input_params::add`, lib/src/input_params.cpp:35-47. -/
def Params.add (p : Params) (value len : Nat) : Params :=
  if 4 ≤ p.values.length then p else ⟨p.values ++ [value], p.len + len - 1⟩

/-- `bind_resolver`, lib/src/bind_resolver.h:64-75.  `keys` are those that were typed. -/
structure Resolver where
  node : Nat
  group : Nat
  pendingInput : Bool := false
  tail : Nat := 0
  params : Params := {}
  accumulator : Nat := 0
  paramLen : Nat := 0
  pendingParam : Bool := false
  keys : List Nat := []
  deriving DecidableEq, Repr

/-- `bind_resolver::reset`, lib/src/bind_resolver.cpp:114-129. -/
def Resolver.reset (r : Resolver) : Resolver := { node := r.group, group := r.group }

/-- `bind_resolver::set_group`, lib/src/bind_resolver.cpp:89-105. -/
def Resolver.setGroup (b : Binder) (r : Resolver) (group : Nat) : Resolver :=
  if group = 0 ∨ size ≤ group then r
  else if r.group = group ∨ (b.nodes (group - 1)).isGroup = false then r
  else { r with group := group, node := group, pendingInput := true, params := {}, accumulator := 0, paramLen := 0, pendingParam := false }

/-- `bind_resolver::step_impl`, lib/src/bind_resolver.cpp:153-178. -/
def Resolver.stepImpl (b : Binder) (r : Resolver) (key : Nat) : Option (Resolver × Bool) :=
  (b.findChild r.node key).map fun next =>
    if next = 0 then (r, true)
    else
      let node := b.nodes next
      let r :=
        if node.hasParams then
          { r with accumulator := ((r.accumulator * 10 % 65536 + (key + 65536 - 48)) % 65536), paramLen := r.paramLen + 1, pendingParam := true }
        else if r.pendingParam then
          { r with params := r.params.add r.accumulator r.paramLen, accumulator := 0, paramLen := 0, pendingParam := false }
        else r
      ({ r with node := next }, decide (node.child = 0))

/-- `bind_resolver::step`, lib/src/bind_resolver.cpp:138-150. -/
def Resolver.step (b : Binder) (r : Resolver) (key : Nat) : Option (Resolver × Bool) :=
  if 16 ≤ r.keys.length then some (r.reset, false) else { r with keys := r.keys ++ [key] }.stepImpl b key

/-- `bind_resolver::binding`, lib/src/bind_resolver.cpp:15-29. -/
structure Binding where
  module : Nat
  id : Nat
  len : Nat
  params : Params
  deriving DecidableEq, Repr

/-- `bind_resolver::next`, lib/src/bind_resolver.cpp:195-197: remaining input. -/
def Resolver.feed (b : Binder) (r : Resolver) : List Nat → Option Resolver
  | [] => some r
  | key :: keys => (r.stepImpl b key).bind fun (r, stop) => if stop then some r else r.feed b keys

/-- `bind_resolver::next`, lib/src/bind_resolver.cpp:211-218: whether a node is a binding for what was typed.  `none` if a key
that was not typed is read. -/
def Resolver.fits (r : Resolver) (node : Node) : Option Bool :=
  let keyIndex : Int := r.tail + node.depth + r.params.len - 1
  if !node.bound then some false
  else if node.key = 0 then some true
  else if keyIndex < 0 then some false
  else (r.keys[keyIndex.toNat]?).map fun k => decide (char k = node.key)

/-- `bind_resolver::next`, lib/src/bind_resolver.cpp:200-224: the search for a binding. -/
def Resolver.search (b : Binder) (r : Resolver) : Nat → Nat → Option (Resolver × Option Binding)
  | 0, _ => none
  | f + 1, index =>
    if index = 0 then some (r.reset, none)
    else
      let node := b.nodes index
      (r.fits node).bind fun ok =>
        if ok then some ({ r with node := node.next }, some ⟨node.module, node.id, ((max 1 node.depth : Nat) + r.params.len).toNat, r.params⟩)
        else r.search b f node.next

/-- `bind_resolver::next`, lib/src/bind_resolver.cpp:181-224. -/
def Resolver.next (b : Binder) (r : Resolver) : Option (Resolver × Option Binding) :=
  if r.pendingInput then
    let r := { r with pendingInput := false }
    let remaining := r.keys.length - r.tail
    if remaining = 0 ∨ 16 ≤ remaining then some (r.reset, none)
    else (r.feed b (r.keys.drop r.tail)).bind fun r => r.search b fuel r.node
  else r.search b fuel r.node

/-- `bind_resolver::claim`, lib/src/bind_resolver.cpp:247-257. -/
def Resolver.claim (r : Resolver) (x : Binding) : Resolver := { r with tail := r.tail + x.len, node := r.group, pendingInput := true }

/-- A new resolver, lib/src/bind_resolver.cpp:82-86, in a group. -/
def Resolver.start (group : Nat) : Resolver := { node := group, group := group }

end Clink.Bind
