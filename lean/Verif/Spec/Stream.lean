import Verif.Model.Stream

/-!
What a session stream should do: it behaves like a file.  Where the code does not do so, nothing is said about the result; each of these places is shown to be wrong in
Props/Stream.lean.
-/

namespace Clink.Stream.Spec

/-- What the parameters must be: the sizes, and `sscanf` reads at most the text and finds no number in an empty text. -/
structure _root_.Clink.Stream.Cfg.Ok (k : Cfg) : Prop where
  buf : 2 ≤ k.buf
  max : k.buf ≤ k.max
  word : k.max < 18446744073709551616
  len : ∀ l v n, k.num l = some (v, n) → n ≤ l.length
  empty : k.num [] = none

/-- In text mode, what is in the file for a text. -/
def encode : List Nat → List Nat
  | [] => []
  | c :: r => if c = 10 then 13 :: 10 :: encode r else c :: encode r

/-- In text mode, the text for what is in the file. -/
def decode : List Nat → List Nat
  | [] => []
  | [c] => [c]
  | c :: c' :: r => if c = 13 ∧ c' = 10 then 10 :: decode r else c :: decode (c' :: r)

def enc (text : Bool) (l : List Nat) : List Nat := if text then encode l else l
def dec (text : Bool) (l : List Nat) : List Nat := if text then decode l else l

/-- `u` is what is read, `v` is what is left, and the end of a line is not divided. -/
def Divides (text : Bool) (rest u v : List Nat) : Prop := rest = u ++ v ∧ dec text rest = dec text u ++ dec text v

/-- The first line with its end. -/
def IsLine (t v : List Nat) : Prop := (∃ w, t = w ++ [10] ∧ 10 ∉ w) ∨ 10 ∉ t ∧ v = []

/-- A named stream: its bytes, and whether it has been truncated and not been extended since. -/
structure File where
  bytes : List Nat := []
  cut : Bool := false

/-- When something is said about what is read.  For lines: there is no NUL, and if the line ends with CR LF, then the CR is not the last byte that a buffer of `buf - 1` bytes takes. -/
def Fine (buf : Nat) (text cut : Bool) (rest : List Nat) : Fmt → Prop
  | .chars n => n ≠ 0
  | .line | .lineEnd => ∀ u v, Divides text rest u v → IsLine (dec text u) v → 0 ∉ u ∧ (text = true → ∀ w, u = w ++ [13, 10] → (w.length + 1) % (buf - 1) ≠ 0)
  | .all => True
  | .number => cut = false

/-- Reading from `rest` gives a value and leaves `v`. -/
inductive Reads (num : List Nat → Option (Nat × Nat)) (text : Bool) (rest : List Nat) : Fmt → Val → List Nat → Prop
  | chars {n u v} : Divides text rest u v → (dec text u).length ≤ n → ((dec text u).length < n → v = []) →
      Reads num text rest (.chars n) (if dec text u = [] then .nil else .str (dec text u)) v
  | line {u v w} : Divides text rest u v → dec text u = w ++ [10] → 10 ∉ w → Reads num text rest .line (.str w) v
  | last : 10 ∉ rest → Reads num text rest .line (if dec text rest = [] then .nil else .str (dec text rest)) []
  | lineEnd {u v w} : Divides text rest u v → dec text u = w ++ [10] → 10 ∉ w → Reads num text rest .lineEnd (.str (w ++ [10])) v
  | lastEnd : 10 ∉ rest → Reads num text rest .lineEnd (if dec text rest = [] then .nil else .str (dec text rest)) []
  | all : Reads num text rest .all (.str (dec text rest)) []
  | number {x n} : num (rest.takeWhile (· != 0)) = some (x, n) → Reads num text rest .number (.num x) (rest.drop n)
  | none : num (rest.takeWhile (· != 0)) = none → Reads num text rest .number .nil rest

/-- Reading several things: it ends with the first that fails. -/
inductive ReadsAll (k : Cfg) (text : Bool) (f : File) : Nat → List Fmt → List Val → Nat → Prop
  | done {pos} : ReadsAll k text f pos [] [] pos
  | next {pos fmt fs x v xs pos'} : Fine k.buf text f.cut (f.bytes.drop pos) fmt → Reads k.num text (f.bytes.drop pos) fmt x v → x ≠ .nil →
      ReadsAll k text f (pos + ((f.bytes.drop pos).length - v.length)) fs xs pos' → ReadsAll k text f pos (fmt :: fs) (x :: xs) pos'
  | fail {pos fmt fs v} : Fine k.buf text f.cut (f.bytes.drop pos) fmt → Reads k.num text (f.bytes.drop pos) fmt .nil v →
      ReadsAll k text f pos (fmt :: fs) [.nil] (pos + ((f.bytes.drop pos).length - v.length))
  | unspecified {pos fmt fs xs pos'} : ¬ Fine k.buf text f.cut (f.bytes.drop pos) fmt → ReadsAll k text f pos (fmt :: fs) xs pos'

/-- Bytes are put at a position of the file.  If that is behind the end, anything can be in between, also if no byte is put. -/
inductive Puts (f : List Nat) (pos : Nat) (b : List Nat) : List Nat → Prop
  | at : pos ≤ f.length → Puts f pos b (f.take pos ++ b ++ f.drop (pos + b.length))
  | behind {gap} : f.length < pos → f.length + gap.length = pos → Puts f pos b (f ++ gap ++ b)
  | nothing : b = [] → Puts f pos b f

/-- Writing one text: as much as there is room for.  Gives the file, the position, and whether there was room for all of it. -/
inductive Writes (k : Cfg) (text : Bool) (f : File) (pos : Nat) (b : List Nat) : File → Nat → Bool → Prop
  | mk {e f'} : e = (enc text b).take (k.max - 1 - pos) → Puts f.bytes pos e f' →
      Writes k text f pos b ⟨f', f.cut && decide (f'.length ≤ f.bytes.length)⟩ (pos + e.length) (decide (e.length = (enc text b).length))

/-- Writing several texts, until there is no room. -/
inductive WritesAll (k : Cfg) (fl : Flags) : File → Nat → List (List Nat) → File → Nat → Bool → Prop
  | done {f pos} : WritesAll k fl f pos [] f pos true
  | next {f pos b bs f1 pos1 f2 pos2 ok} : Writes k fl.text f (if fl.append then f.bytes.length else pos) b f1 pos1 true → WritesAll k fl f1 pos1 bs f2 pos2 ok →
      WritesAll k fl f pos (b :: bs) f2 pos2 ok
  | full {f pos b bs f1 pos1} : Writes k fl.text f (if fl.append then f.bytes.length else pos) b f1 pos1 false → WritesAll k fl f pos (b :: bs) f1 pos1 false

/-- Where seeking goes; nothing is said if that is before the start or behind the limit. -/
def Seeks (max size pos : Nat) (w : Whence) (by_ : Int) (to : Nat) : Prop :=
  let t : Int := (match w with | .set => 0 | .cur => (pos : Int) | .stop => (size : Int)) + by_
  0 ≤ t → t ≤ max → (to : Int) = t

/-- The modes in the documentation: for reading, writing, appending, with `+` for both, with `x` (writing only) if the stream must not exist. -/
def modes : List (String × Flags × Bool) :=
  [("r", { read := true }, false), ("w", { create := true, write := true }, true), ("wx", { create := true, write := true, only := true }, true),
   ("a", { create := true, write := true, append := true }, false), ("r+", { read := true, write := true }, false),
   ("w+", { create := true, write := true, read := true }, true), ("w+x", { create := true, write := true, read := true, only := true }, true),
   ("a+", { create := true, write := true, read := true, append := true }, false)]

/-- The bytes of a mode, with or without `b` for binary. -/
def Mode (m : List Nat) (f : Flags) (clear : Bool) : Prop :=
  ∃ t, (t, { f with text := true }, clear) ∈ modes ∧ m = t.toList.map Char.toNat ++ if f.text then [] else [98]

structure State where
  files : List Nat → Option File := fun _ => none
  handles : List Handle := []

def setFile (m : List Nat → Option File) (name : List Nat) (f : File) : List Nat → Option File := fun n => if n = name then some f else m n

/-- What each operation does.  A handle has its own position; the handles of one name share the bytes. -/
inductive Step (k : Cfg) (s : State) : Op → State → Out → Prop
  | opens {name mode f clear} : Mode mode f clear → (s.files name = none → f.create) → (s.files name ≠ none → ¬ f.only) →
      Step k s (.opens name mode)
        ⟨setFile s.files name (if clear then {} else (s.files name).getD {}), s.handles ++ [{ name := name, flags := f }]⟩ (.stream s.handles.length)
  | exists_ {name mode f clear} : Mode mode f clear → s.files name ≠ none → f.only → Step k s (.opens name mode) s .exists_
  | missing {name mode f clear} : Mode mode f clear → s.files name = none → ¬ f.create → Step k s (.opens name mode) s .missing
  | mode {name mode} : (∀ f clear, ¬ Mode mode f clear) → Step k s (.opens name mode) s .error
  | write {h x f args f' pos ok} : s.handles[h]? = some x → x.live → s.files x.name = some f → x.flags.write → WritesAll k x.flags f x.off args f' pos ok →
      Step k s (.write h args) ⟨setFile s.files x.name f', s.handles.set h { x with off := pos }⟩ (if ok then .ok else .failed)
  | noWrite {h x args} : s.handles[h]? = some x → x.live → ¬ x.flags.write → Step k s (.write h args) s .badf
  | read {h x f fmts vals pos} : s.handles[h]? = some x → x.live → s.files x.name = some f → x.flags.read →
      ReadsAll k x.flags.text f x.off (if fmts = [] then [.line] else fmts) vals pos → Step k s (.read h fmts) ⟨s.files, s.handles.set h { x with off := pos }⟩ (.values vals)
  | noRead {h x fmts} : s.handles[h]? = some x → x.live → ¬ x.flags.read → Step k s (.read h fmts) s .badf
  | seek {h x f w b to} : s.handles[h]? = some x → x.live → s.files x.name = some f → Seeks k.max f.bytes.length x.off w b to →
      Step k s (.seek h w b) ⟨s.files, s.handles.set h { x with off := to }⟩ (.pos to)
  | truncate {h x f} : s.handles[h]? = some x → x.live → s.files x.name = some f → x.flags.write →
      Step k s (.truncate h) ⟨setFile s.files x.name ⟨f.bytes.take x.off, f.cut || decide (x.off < f.bytes.length)⟩, s.handles⟩ .ok
  | noTruncate {h x} : s.handles[h]? = some x → x.live → ¬ x.flags.write → Step k s (.truncate h) s .ok
  | close {h x} : s.handles[h]? = some x → x.live → Step k s (.close h) ⟨s.files, s.handles.set h { x with live := false }⟩ .ok
  | closed {op h} : (op = .close h ∨ op = .truncate h ∨ (∃ a, op = .write h a) ∨ (∃ a, op = .read h a) ∨ ∃ w b, op = .seek h w b) →
      (∀ x, s.handles[h]? = some x → ¬ x.live) → Step k s op s .error

/-- The results of a sequence of operations. -/
inductive Runs (k : Cfg) : State → List Op → List Out → Prop
  | nil {s} : Runs k s [] []
  | cons {s op s' o ops os} : Step k s op s' o → Runs k s' ops os → Runs k s (op :: ops) (o :: os)

end Clink.Stream.Spec
