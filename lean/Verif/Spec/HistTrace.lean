import Verif.Spec.HistWorld

/-!
Executions of several sessions.  Each step is what one process does while it holds its locks; the steps of the processes come
in any order.
-/

namespace Clink.Hist.Spec

/-- The files, the processes with the lines that they loaded, and, for the statements only, the texts that each session
wanted to remove. -/
structure St where
  w : World
  dbs : Nat → Option (Db × View)
  chosen : Nat → List (List Nat)

inductive Op where
  | begin (id : Nat)
  | openMaster (id : Nat)
  | openSession (id : Nat)
  | load (id : Nat)
  | append (id : Nat) (line : List Nat)
  | removeLine (id : Nat) (line : List Nat)
  | removeEntry (id : Nat) (text : List Nat)
  | clear (id : Nat)
  | compact (id limit : Nat) (uniq : Bool)
  | reap (id : Nat) (master : Bool)
  | exit (id : Nat)
  deriving DecidableEq

/-- A tag that occurs nowhere. -/
structure Fresh (s : St) (tag : List Nat) : Prop where
  valid : IsTag tag
  master : ∀ body, s.w.master ≠ tag ++ [10] ++ body
  removals : ∀ id r, (s.w.sess id).removals = some r → ∀ body, r ≠ tag ++ [10] ++ body
  ctag : ∀ id d v, s.dbs id = some (d, v) → d.ctag ≠ tag

/-- The state after a step of process `id`. -/
def St.next (s : St) (w : World) (id : Nat) (p : Option (Db × View)) (more : List (List Nat)) : St :=
  ⟨w, fun i => if i = id then p else s.dbs i, fun i => if i = id then more ++ s.chosen i else s.chosen i⟩

/-- The steps. -/
inductive Step (junk : List Nat) : St → Op → St → Prop
  | begin (s : St) (id : Nat) (hd : s.dbs id = none) :
      Step junk s (.begin id) (s.next (s.w.begin id).1 id (some ((s.w.begin id).2, [])) [])
  | openMaster (s : St) (id : Nat) (d : Db) (v : View) (ok : Bool) (tag : List Nat) (w' : World) (d' : Db) (hd : s.dbs id = some (d, v))
      (h : s.w.openMaster junk d ok tag = some (w', d')) : Step junk s (.openMaster id) (s.next w' id (some (d', [])) [])
  /- The files of removals of a process that had the same number are gone. -/
  | openSession (s : St) (id : Nat) (d : Db) (v : View) (erase : Bool) (hd : s.dbs id = some (d, v)) (hr : (s.w.sess id).removals = none) :
      Step junk s (.openSession id) (s.next (s.w.openSession d erase).1 id (some ((s.w.openSession d erase).2, [])) [])
  | load (s : St) (id : Nat) (d : Db) (v v' : View) (hd : s.dbs id = some (d, v)) (hv : s.w.view junk d = some v') :
      Step junk s (.load id) (s.next s.w id (some (s.w.reload d, v')) [])
  | append (s : St) (id : Nat) (d : Db) (v : View) (stamp line : List Nat) (hd : s.dbs id = some (d, v)) (hl : IsLine line) (hln : line.length < junk.length)
      (hst : IsStamp stamp) (hsn : stamp.length + 7 < junk.length) :
      Step junk s (.append id line) (s.next (s.w.append d stamp line) id (some (d, v)) [])
  | removeMaster (s : St) (id : Nat) (d : Db) (v : View) (line : List Nat) (w' : World) (hd : s.dbs id = some (d, v))
      (h : s.w.removeMaster junk d line = some w') : Step junk s (.removeLine id line) (s.next w' id (some (d, v)) [line])
  | removeSession (s : St) (id : Nat) (d : Db) (v : View) (line : List Nat) (w' : World) (hd : s.dbs id = some (d, v))
      (h : s.w.removeSession junk d line = some w') : Step junk s (.removeLine id line) (s.next w' id (some (d, v)) [line])
  /- An entry that was loaded; the code compares the tags first. -/
  | removeEntry (s : St) (id : Nat) (d : Db) (v : View) (master : Bool) (o : Nat) (text : List Nat) (hd : s.dbs id = some (d, v))
      (hin : (master, o, text) ∈ v) :
      Step junk s (.removeEntry id text) (s.next (s.w.removeId d master o true).1 id (some (d, v)) [text])
  | clearMaster (s : St) (id : Nat) (d : Db) (v : View) (tag : List Nat) (hd : s.dbs id = some (d, v)) (ht : Fresh s tag) :
      Step junk s (.clear id) (s.next (s.w.clearMaster d tag).1 id (some ((s.w.clearMaster d tag).2, [])) [])
  | clearSession (s : St) (id : Nat) (d : Db) (v : View) (hd : s.dbs id = some (d, v)) :
      Step junk s (.clear id) (s.next (s.w.clearSession d) id (some (d, [])) [])
  /- The session loads the history again after this. -/
  | compact (s : St) (id : Nat) (d : Db) (v : View) (limit : Nat) (uniq : Bool) (tag : List Nat) (ids : List Nat) (w' : World) (d' : Db)
      (hd : s.dbs id = some (d, v)) (ht : Fresh s tag) (h : s.w.compact junk d limit uniq tag ids = some (w', d')) :
      Step junk s (.compact id limit uniq) (s.next w' id (some (d', [])) [])
  /- Any process can collect the files of a session. -/
  | reap (s : St) (id : Nat) (d : Db) (w' : World) (h : s.w.reap d id = some w') :
      Step junk s (.reap id d.master) { s with w := w' }
  /- The end of a process, orderly or not. -/
  | exit (s : St) (id : Nat) (d : Db) (v : View) (hd : s.dbs id = some (d, v)) :
      Step junk s (.exit id) (s.next (s.w.finish d).1 id none [])

/-- All files are smaller than 512 MB. -/
structure Sizes (w : World) : Prop where
  master : w.master.length ≤ 2 ^ 29 - 1
  lines : ∀ id f, (w.sess id).lines = some f → f.length ≤ 2 ^ 29 - 1
  removals : ∀ id f, (w.sess id).removals = some f → f.length ≤ 2 ^ 29 - 1

/-- Executions. -/
inductive Run (junk : List Nat) : St → List Op → St → Prop
  | nil (s : St) : Run junk s [] s
  | cons {s s1 s2 : St} {op : Op} {ops : List Op} (h : Step junk s op s1) (hs : Sizes s1.w) (hr : Run junk s1 ops s2) : Run junk s (op :: ops) s2

/-- The start: a master file with a tag, and no sessions. -/
structure Start (n : Nat) (s : St) : Prop where
  master : IsFile n s.w.master
  tagged : ∃ tag body, IsTag tag ∧ s.w.master = tag ++ [10] ++ body
  sess : ∀ id, s.w.sess id = {}
  dbs : ∀ id, s.dbs id = none

/-- A line is in the master file or in the file of a session. -/
def Present (t : List Nat) (w : World) : Prop :=
  (∃ o, (o, t) ∈ linesOf w.master) ∨ ∃ id f o, (w.sess id).lines = some f ∧ (o, t) ∈ linesOf f

/-- A session waits to remove the line at an offset: its file of removals has the tag of the master file, and the offset. -/
def Pending (w : World) (id o : Nat) : Prop :=
  ∃ r tag os body, (w.sess id).removals = some r ∧ IsTag tag ∧ IsRemovals tag os r ∧ w.master = tag ++ [10] ++ body ∧ o ∈ os

/-- A line is in the file of a session, or in the master file and no session waits to remove it. -/
def Kept (t : List Nat) (w : World) : Prop :=
  (∃ o, (o, t) ∈ linesOf w.master ∧ ∀ id, ¬ Pending w id o) ∨ ∃ id f o, (w.sess id).lines = some f ∧ (o, t) ∈ linesOf f

/-- Steps that should not take a line away: nothing is cleared, the line is not removed, files of sessions are collected by
processes that use the master file, and compaction has no limit.  With `uniq` compaction may remove duplicates. -/
def Keeping (uniq : Bool) (t : List Nat) : Op → Prop
  | .clear _ => False
  | .removeLine _ t' => t' ≠ t
  | .removeEntry _ t' => t' ≠ t
  | .compact _ limit u => limit = 0 ∧ (u = true → uniq = true)
  | .reap _ master => master = true
  | _ => True

end Clink.Hist.Spec
