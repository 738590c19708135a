import Verif.Model.HistFile

/-!
Model of the history database.
Source: clink/lib/src/history_db.cpp, with `history.save` on (`m_use_master_bank`).

The files are the master file and, for every session, a file for its lines, a file for its deferred removals, and a file that
says that the session is alive.  Each function here is one that the code executes while it holds the locks on the files that
it changes; the functions of different processes can come in any order.  Reads and writes do not fail.  Files are not opened
in between by other programs.  Buffers are lists of bytes; only their length matters (`C30_buffers`).  `none` is
non-termination.
-/

namespace Clink.Hist

/-- `write_lock::add`, lib/src/history_db.cpp:781-792. -/
def addLine (f line : List Nat) : List Nat := f ++ line ++ [10]

/-- `SetFilePointer` and `WriteFile`: a file that is too short is extended. -/
def overwrite (f : List Nat) (o : Nat) (w : List Nat) : List Nat := f.take o ++ List.replicate (o - f.length) 0 ++ w ++ f.drop (o + w.length)

/-- `%d`, `%u`. -/
def digits (n : Nat) : List Nat := if n < 10 then [48 + n] else digits (n / 10) ++ [48 + n % 10]
termination_by n
decreasing_by omega

/-- The files of a lock: `bank_lock`, lib/src/history_db.cpp:239-253. -/
structure Bank where
  lines : List Nat
  removals : Option (List Nat)
  deriving DecidableEq, Repr

/-- `write_lock::remove`, lib/src/history_db.cpp:795-821.  `master` says that the id is one of the master bank. -/
def Bank.remove (b : Bank) (master : Bool) (o : Nat) : Bank × Bool :=
  if o = maxOffset then (b, false)
  else
    match b.removals, master with
    | some r, true => ({ b with removals := some (r ++ digits o ++ [10]) }, true)
    | _, _ => ({ b with lines := overwrite b.lines o [124] }, true)

/-- `write_lock::clear`, lib/src/history_db.cpp:769-778. -/
def Bank.clear (b : Bank) : Bank := ⟨[], b.removals.map fun _ => []⟩

/-- `extract_ctag`, lib/src/history_db.cpp:933-962, with a buffer of `size` bytes. -/
def extractCtag (size : Nat) (file : List Nat) : Option (List Nat) :=
  let bytes := file.take size
  if bytes = [] then none
  else
    let s := (bytes.take (min bytes.length (size - 1))).takeWhile (· != 0)
    if ¬ ctagPrefix <+: s then none
    else if s.any (fun c => c == 10 || c == 13) then some (s.takeWhile fun c => !(c == 10 || c == 13)) else none

/-- The number at the start of a line, lib/src/history_db.cpp:512-520. -/
def parseOffset : Nat → List Nat → Nat
  | n, [] => n
  | n, c :: r => if c < 48 ∨ c > 57 then n else parseOffset ((n * 10 + (c - 48)) % 2 ^ 64) r

/-- `for_each_removal`, lib/src/history_db.cpp:457-536: the offsets, or `.inl` and its result. -/
def forEachRemoval (target : List Nat) (removals : Option (List Nat)) : Option (Int ⊕ List Nat) :=
  match removals with
  | none => some (.inl 0)
  | some r =>
    if (extractCtag 512 target).getD [] ≠ (extractCtag 512 r).getD [] then some (.inl (-1))
    else
      (readLines (List.replicate 512 0) r []).map fun es =>
        .inr ((es.map fun e => parseOffset 0 e.text).filter fun o => decide (0 < o ∧ o < maxOffset))

/-- The removals of a `line_iter`, lib/src/history_db.cpp:624-631. -/
def Bank.hidden (b : Bank) : Option (List Nat) := (forEachRemoval b.lines b.removals).map fun
  | .inl _ => []
  | .inr os => os

/-- All lines of a bank: `line_iter iter(lock, ...)` and its `next`. -/
def Bank.read (junk : List Nat) (b : Bank) : Option (List Entry) := b.hidden.bind fun rs => readLines junk b.lines rs

/-- `read_lock::find`, lib/src/history_db.cpp:403-424, for texts without NUL: the ids it calls the function for.  The functions that it is called
with only change bytes that were read before. -/
def Bank.find (junk : List Nat) (b : Bank) (line : List Nat) : Option (List Nat) :=
  (b.read junk).map fun es => (es.filter fun e => decide (e.text = line)).map (·.offset)

/-- The function in `history_db::remove(line)`, lib/src/history_db.cpp:1815-1826. -/
def Bank.removeLine (junk : List Nat) (b : Bank) (master : Bool) (line : List Nat) : Option Bank :=
  (b.find junk line).map fun os => os.foldl (fun b o => (b.remove master o).1) b

/-! `rewrite_master_bank` -/

/-- `keep_line_pair`, lib/src/history_db.cpp:981-991; no bytes in `stamp` if there is no timestamp. -/
structure Keep where
  text : List Nat
  old : Nat
  stamp : List Nat
  stampOld : Option Nat
  deriving DecidableEq, Repr

/-- The line and the timestamp to keep, lib/src/history_db.cpp:1007-1012, 1032-1034. -/
def keepOf (e : Entry) : Keep := ⟨e.text, e.offset, if e.stamp.text = [] then [] else timePrefix ++ e.stamp.text, e.stamp.offset⟩

/-- A line that was seen before is dropped, lib/src/history_db.cpp:1017-1027. -/
def forget (keeps : List (Option Keep)) (seen : List (List Nat × Nat)) (text : List Nat) : List (Option Keep) :=
  match seen.lookup text with
  | some k => keeps.set k none
  | none => keeps

/-- The lines to keep, and the indices of those that were seen, lib/src/history_db.cpp:1000-1039.  Dropped lines leave an
empty place. -/
def collect (uniq : Bool) : List (Option Keep) → List (List Nat × Nat) → List Entry → List (Option Keep)
  | keeps, _, [] => keeps
  | keeps, seen, e :: es =>
    if uniq then
      let keeps := forget keeps seen e.text
      collect uniq (keeps ++ [some (keepOf e)]) ((e.text, keeps.length) :: seen.filter fun x => x.1 ≠ e.text) es
    else collect uniq (keeps ++ [some (keepOf e)]) seen es

/-- `for (start = size; limit && start--;)`, lib/src/history_db.cpp:1053-1059.  `start` is a `size_t`: it becomes
2^64 - 1 if the limit is not reached. -/
def limitLoop (keeps : List (Option Keep)) : Nat → Nat → Nat
  | s, 0 => s
  | 0, _ + 1 => 2 ^ 64 - 1
  | s + 1, l + 1 => limitLoop keeps s (if (keeps.getD s none).isSome then l else l + 1)

def limitStart (limit : Nat) (keeps : List (Option Keep)) : Nat :=
  if 0 < limit ∧ limit < keeps.length then limitLoop keeps keeps.length limit else 0

/-- Writing the lines, lib/src/history_db.cpp:1061-1073, 1100-1112: the file, and the old and new offsets. -/
def writeKeeps : List Nat → List (Option Keep) → List Nat × List (Nat × Nat)
  | f, [] => (f, [])
  | f, none :: ks => writeKeeps f ks
  | f, some k :: ks =>
    let f1 := if k.stamp = [] then f else addLine f k.stamp
    let r := writeKeeps (addLine f1 k.text) ks
    let m := if k.stamp = [] then [] else [(k.stampOld.getD 0, f.length)]
    (r.1, m ++ (k.old, f1.length) :: r.2)

/-- `rewrite_master_bank`, lib/src/history_db.cpp:973-1113: the new master file and the changed offsets.  `tag` is the new
tag. -/
def rewrite (junk : List Nat) (master : List Nat) (limit : Nat) (uniq : Bool) (tag : List Nat) : Option (List Nat × List (Nat × Nat)) :=
  (readLines junk master []).map fun es =>
    let keeps := collect uniq [] [] es
    writeKeeps (addLine [] tag) (keeps.drop (limitStart limit keeps))

/-! Sessions -/

/-- The files of a session. -/
structure Sess where
  alive : Bool := false
  lines : Option (List Nat) := none
  removals : Option (List Nat) := none
  deriving DecidableEq, Repr

structure World where
  master : List Nat
  sess : Nat → Sess

/-- Changes the files of a session. -/
def World.setSess (w : World) (id : Nat) (s : Sess) : World := { w with sess := fun i => if i = id then s else w.sess i }

/-- A `history_db`: which files are open, and `m_master_ctag`. -/
structure Db where
  id : Nat
  master : Bool
  session : Bool
  removals : Bool
  ctag : List Nat
  deriving DecidableEq, Repr

/-- `get_bank(bank_master)`, lib/src/history_db.cpp:1372-1387. -/
def World.masterBank (w : World) (d : Db) : Option Bank :=
  if d.master then some ⟨w.master, if d.removals then (w.sess d.id).removals else none⟩ else none

/-- `get_bank(bank_session)`. -/
def World.sessionBank (w : World) (d : Db) : Option Bank :=
  if d.session then some ⟨((w.sess d.id).lines).getD [], none⟩ else none

/-- The files after a change of the master bank. -/
def World.putMaster (w : World) (d : Db) (b : Bank) : World :=
  let w := { w with master := b.lines }
  if d.removals then w.setSess d.id { w.sess d.id with removals := b.removals } else w

def World.putSession (w : World) (d : Db) (b : Bank) : World := w.setSess d.id { w.sess d.id with lines := some b.lines }

/-- Everything that the session sees: `load_internal`, `read_line_iter`, lib/src/history_db.cpp:856-900, 1484-1533.  `true` is
for a line of the master bank. -/
def World.view (junk : List Nat) (w : World) (d : Db) : Option (List (Bool × Nat × List Nat)) := do
  let m ← match w.masterBank d with
    | none => some []
    | some b => b.read junk
  let s ← match w.sessionBank d with
    | none => some []
    | some b => b.read junk
  some (m.map (fun e => (true, e.offset, e.text)) ++ s.map (fun e => (false, e.offset, e.text)))

/-- `history_db::remove(line)`, lib/src/history_db.cpp:1812-1829, for the master bank. -/
def World.removeMaster (junk : List Nat) (w : World) (d : Db) (line : List Nat) : Option World :=
  match w.masterBank d with
  | none => some w
  | some b => (b.removeLine junk true line).map (w.putMaster d)

/-- The same for the session bank. -/
def World.removeSession (junk : List Nat) (w : World) (d : Db) (line : List Nat) : Option World :=
  match w.sessionBank d with
  | none => some w
  | some b => (b.removeLine junk false line).map (w.putSession d)

/-- The end of `history_db::add`, lib/src/history_db.cpp:1792-1808, with a timestamp or without (no bytes). -/
def World.append (w : World) (d : Db) (stamp line : List Nat) : World :=
  let put := fun f => addLine (if stamp = [] then f else addLine f (timePrefix ++ stamp)) line
  if d.master ∧ ¬ d.session then { w with master := put w.master }
  else
    match w.sessionBank d with
    | none => w
    | some b => w.putSession d { b with lines := put b.lines }

/-- `history_db::find`, lib/src/history_db.cpp:1941-1953. -/
def World.find (junk : List Nat) (w : World) (d : Db) (line : List Nat) : Option Bool := do
  let m ← match w.masterBank d with
    | none => some []
    | some b => b.find junk line
  let s ← match w.sessionBank d with
    | none => some []
    | some b => b.find junk line
  some (!m.isEmpty || !s.isEmpty)

/-- `history_db::add`, lib/src/history_db.cpp:1771-1809, without locks in between: `mode` is `history.dupe_mode` (0 add,
1 ignore, 2 erase_prev) and `ignoreSpace` is `history.ignore_space`. -/
def World.add (junk : List Nat) (w : World) (d : Db) (mode : Nat) (ignoreSpace : Bool) (stamp line : List Nat) : Option (World × Bool) :=
  match line with
  | [] => some (w, false)
  | c :: _ =>
    if ignoreSpace && (c == 32 || c == 9) then some (w, false)
    else if mode = 1 then
      (w.find junk d line).map fun b => if b then (w, true) else (w.append d stamp line, d.master || d.session)
    else if mode = 2 then do
      let w ← w.removeMaster junk d line
      let w ← w.removeSession junk d line
      some (w.append d stamp line, d.master || d.session)
    else some (w.append d stamp line, d.master || d.session)

/-- `remove_internal`, lib/src/history_db.cpp:1832-1892; the tag is compared if `guard`.  The map of indices is not modelled. -/
def World.removeId (w : World) (d : Db) (master : Bool) (o : Nat) (guard : Bool) : World × Bool :=
  match (if master then w.masterBank d else w.sessionBank d) with
  | none => (w, false)
  | some b =>
    if guard && master && decide (extractCtag 51 b.lines ≠ some d.ctag) then (w, false)
    else
      let r := b.remove master o
      (if master then w.putMaster d r.1 else w.putSession d r.1, r.2)

/-- `history_db::clear`, lib/src/history_db.cpp:1564-1588, for the master bank. -/
def World.clearMaster (w : World) (d : Db) (tag : List Nat) : World × Db :=
  match w.masterBank d with
  | none => (w, d)
  | some b =>
    let b := b.clear
    (w.putMaster d { b with lines := addLine b.lines tag }, { d with ctag := tag })

/-- The same for the session bank. -/
def World.clearSession (w : World) (d : Db) : World :=
  match w.sessionBank d with
  | none => w
  | some b => w.putSession d b.clear

/-- The start of a file of removals: `make_removals_file`, lib/src/history_db.cpp:160-171.  A file that is there is not
truncated. -/
def makeRemovals (old : Option (List Nat)) (ctag : List Nat) : List Nat := overwrite (old.getD []) 0 (ctag ++ [10])

/-- The removals files that match the master file, lib/src/history_db.cpp:1673-1715.  `ids` are the sessions that are found. -/
def collectRemovals (w : World) : List Nat → Option (List (Nat × List Nat))
  | [] => some []
  | id :: ids => do
    let rest ← collectRemovals w ids
    match (w.sess id).lines, (w.sess id).removals with
    | some l, some r =>
      if l.length > 0 ∨ r.length > 0 then
        match ← forEachRemoval w.master (some r) with
        | .inl _ => some rest
        | .inr os => some ((id, os) :: rest)
      else some rest
    | _, _ => some rest

/-- The new files of removals, lib/src/history_db.cpp:1729-1754. -/
def writeRemovals (tag : List Nat) (remap : List (Nat × Nat)) : List (Nat × List Nat) → World → World
  | [], w => w
  | (id, os) :: rs, w =>
    let f := tag ++ [10] ++ (os.filterMap fun o => (remap.lookup o).map fun n => digits n ++ [10]).flatten
    writeRemovals tag remap rs (w.setSess id { w.sess id with removals := some f })

/-- The end of `compact`, lib/src/history_db.cpp:1658-1767.  (The removal of the oldest lines before that is a series of
`removeId`.) -/
def World.compact (junk : List Nat) (w : World) (d : Db) (limit : Nat) (uniq : Bool) (tag : List Nat) (ids : List Nat) : Option (World × Db) :=
  if ¬ d.master then some (w, d)
  else do
    let rs ← collectRemovals w ids
    let (f, remap) ← rewrite junk w.master limit uniq tag
    let ctag := (extractCtag 51 f).getD []
    some (writeRemovals ctag remap rs { w with master := f }, { d with ctag := ctag })

/-- The part of `reap` for one session, lib/src/history_db.cpp:1236-1287. -/
def World.reap (w : World) (d : Db) (id : Nat) : Option World :=
  let s := w.sess id
  match s.lines with
  | none => some w
  | some l =>
    if s.alive then some w
    else do
      let master ← if d.master ∧ (l.length > 0 ∨ (s.removals.getD []).length > 0) then do
          let m := w.master ++ l
          match ← forEachRemoval m s.removals with
          | .inl _ => some m
          | .inr os => some (os.foldl (fun f o => overwrite f o [124]) m)
        else some w.master
      some ({ w with master := master }.setSess id {})

/-- The constructor, lib/src/history_db.cpp:1173-1208: the alive file. -/
def World.begin (w : World) (id : Nat) : World × Db := (w.setSess id { w.sess id with alive := true }, ⟨id, false, false, false, []⟩)

/-- The master bank in `initialise`, lib/src/history_db.cpp:1307-1327; `ok` says if the file can be opened.  The two locks
are taken together. -/
def World.openMaster (junk : List Nat) (w : World) (d : Db) (ok : Bool) (tag : List Nat) : Option (World × Db) :=
  if ¬ ok then some (w, { d with master := false, ctag := [] })
  else
    match extractCtag 51 w.master with
    | some t => some (w, { d with master := true, ctag := t })
    | none => (rewrite junk w.master 0 false tag).map fun r => ({ w with master := r.1 }, { d with master := true, ctag := (extractCtag 51 r.1).getD [] })

/-- The session bank in `initialise`, lib/src/history_db.cpp:1342-1360; `eraseDups` says that `history.dupe_mode` is
`erase_prev`. -/
def World.openSession (w : World) (d : Db) (eraseDups : Bool) : World × Db :=
  let s := w.sess d.id
  let s := { s with lines := some (s.lines.getD []) }
  if eraseDups then (w.setSess d.id { s with removals := some (makeRemovals s.removals d.ctag) }, { d with session := true, removals := true })
  else (w.setSess d.id s, { d with session := true })

/-- Loading: `m_master_ctag` is read again, lib/src/history_db.cpp:1489-1493. -/
def World.reload (w : World) (d : Db) : Db := if d.master then { d with ctag := (extractCtag 51 w.master).getD [] } else d

/-- The destructor, lib/src/history_db.cpp:1211-1221, up to `reap`. -/
def World.finish (w : World) (d : Db) : World × Db :=
  (w.setSess d.id { w.sess d.id with alive := false }, { d with session := false, removals := false })

end Clink.Hist
