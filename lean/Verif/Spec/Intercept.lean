import Verif.Model.Intercept

/-! What directory shortcuts and the directory history should do. -/

namespace Clink.Intercept.Spec

def Blanks (l : List Nat) : Prop := ∀ c ∈ l, c = 32 ∨ c = 9

def lower (l : List Nat) : List Nat := l.map Color.lower

def IsSep (c : Nat) : Prop := c = 47 ∨ c = 92

/-- Commands that may be followed by `.`, `/` or `\`. -/
def known : List (List Nat) := [Color.bs "call", Color.bs "cd", Color.bs "chdir", Color.bs "dir", Color.bs "echo", Color.bs "md", Color.bs "mkdir", Color.bs "popd", Color.bs "pushd"]

/-- `-`, or one of the commands `cd` and `chdir`, perhaps with `/d`, with `-`. -/
inductive Dash (os : Os) (only : Bool) : List Nat → Prop
  | alone {a b} : only = false → Blanks a → Blanks b → Dash os only (a ++ [45] ++ b)
  | plain {a w b c} : Blanks a → (lower w = Color.bs "cd" ∨ lower w = Color.bs "chdir") → Blanks b → b ≠ [] → Blanks c → (only = true → os.alias (lower w) = false) →
      Dash os only (a ++ w ++ b ++ [45] ++ c)
  | drive {a w b d b' c} : Blanks a → (lower w = Color.bs "cd" ∨ lower w = Color.bs "chdir") → Blanks b → lower d = Color.bs "/d" → Blanks b' → b' ≠ [] → Blanks c →
      (only = true → os.alias (lower w) = false) → Dash os only (a ++ w ++ b ++ d ++ b' ++ [45] ++ c)

/-- Each byte with whether it is within quotes. -/
def marks : Bool → List Nat → List (Nat × Bool)
  | _, [] => []
  | q, c :: r => (c, q) :: marks (if c = 34 then !q else q) r

/-- What is left of a word: without quotes, and without carets that are not within quotes and not at the end of the line. -/
def kept (last : Bool) : List (Nat × Bool) → List Nat
  | [] => []
  | (c, q) :: r => if c = 34 ∨ c = 94 ∧ q = false ∧ ¬ (r = [] ∧ last = true) then kept last r else c :: kept last r

/-- The line is one word `w` between blanks `a` and `b`, it has no character that means something else to the command processor, and it does not start with a command that can be followed by
a path. -/
structure OneWord (line a w b : List Nat) : Prop where
  parts : line = a ++ w ++ b
  before : Blanks a
  after : Blanks b
  closed : b ≠ [] → w.count 34 % 2 = 0
  redir : ∀ c ∈ w, c ∉ Color.bs "<|>"
  special : ∀ x ∈ marks false w, x.2 = false → x.1 ∉ Color.bs "@()&+=;, \t"
  command : ∀ p c s, w = p ++ c :: s → c ∈ Color.bs "./\\" → (∀ x ∈ p, x ∉ Color.bs "./\\\"^%") → lower p ∉ known

/-- What the line is about: its word, with variables expanded. -/
def Token (os : Os) (line t : List Nat) : Prop :=
  ∃ a w b, OneWord line a w b ∧ t ≠ [] ∧ t = if 37 ∈ w then os.expand (kept b.isEmpty (marks false w)) else kept b.isEmpty (marks false w)

/-- `n` dots, and perhaps a separator. -/
def Dots (n : Nat) (t : List Nat) : Prop := t = List.replicate n 46 ∨ ∃ c, IsSep c ∧ t = List.replicate n 46 ++ [c]

/-- `..\..` and so on. -/
inductive Ups : List Nat → Prop
  | one : Ups [46, 46]
  | more {c r} : IsSep c → Ups r → Ups ([46, 46, c] ++ r)

/-- `~` for the home directory. -/
inductive Home (os : Os) : List Nat → List Nat → Prop
  | home : Home os [126] (os.home [126])
  | below {c r} : IsSep c → Home os ([126, c] ++ r) (os.home ([126, c] ++ r))
  | other {t} : t ≠ [126] → (∀ c r, t = [126, c] ++ r → ¬ IsSep c) → Home os t t

/-- The drive of a path, perhaps behind `\\?\`. -/
inductive Drive : List Nat → Nat → Prop
  | plain {c r} : (65 ≤ c ∧ c ≤ 90 ∨ 97 ≤ c ∧ c ≤ 122) → Drive ([c, 58] ++ r) c
  | long {a b d s c r} : IsSep a → IsSep b → IsSep d → (∀ x ∈ s, IsSep x) → (65 ≤ c ∧ c ≤ 90 ∨ 97 ≤ c ∧ c ≤ 122) → Drive ([a, b, 63, d] ++ s ++ [c, 58] ++ r) c

/-- The same for any character instead of a letter. -/
inductive Colon : List Nat → Prop
  | plain {c r} : Colon ([c, 58] ++ r)
  | long {a b d s c r} : IsSep a → IsSep b → IsSep d → (∀ x ∈ s, IsSep x) → ¬ IsSep c → Colon ([a, b, 63, d] ++ s ++ [c, 58] ++ r)

/-- The command that changes to a directory. -/
inductive Cd (cwd dir : List Nat) : List Nat → Prop
  | here : (∀ c, Drive dir c → ∃ c', Drive cwd c' ∧ Color.lower c = Color.lower c') → Cd cwd dir (Color.bs " cd \"" ++ dir ++ Color.bs "\"")
  | drive {c} : Drive dir c → (∀ c', Drive cwd c' → Color.lower c ≠ Color.lower c') → Cd cwd dir (Color.bs " " ++ [c, 58] ++ Color.bs " & cd \"" ++ dir ++ Color.bs "\"")

/-- The directory that a word stands for: dots go up (one less than their number), otherwise it must be a directory and end with a separator or be `~`; for `..\..` the separator is added.  With
`no_remote`, a directory on another computer does not count if it has a drive or the user says so. -/
inductive Names (os : Os) (mode : Mode) (t : List Nat) : List Nat → Prop
  | dots {n} : 2 ≤ n → Dots n t → Names os mode t (List.replicate (n - 1) (Color.bs "..\\")).flatten
  | dir {t' d} : (∀ n, 2 ≤ n → ¬ Dots n t) → ((t = [126] ∨ ∃ u c, t = u ++ [c] ∧ IsSep c) ∧ t' = t ∨ Ups t ∧ t' = t ++ [92]) → Home os t' d → os.dir d = true →
      (mode = .no_remote → os.remote d = true → os.noRemote = false ∧ ¬ Colon d) →
      Names os mode t d

/-- What becomes of a line. -/
inductive Intercepts (os : Os) (line : List Nat) (mode : Mode) : Result × Option (List Nat) → Prop
  | prev : Dash os (decide (mode = .only_cd_chdir)) line → Intercepts os line mode (.prev_dir, none)
  | chdir {t d cmd} : ¬ Dash os false line → mode ≠ .only_cd_chdir → Token os line t → Names os mode t d → Cd os.cwd (d.map fun c => if c = 47 then 92 else c) cmd →
      Intercepts os line mode (.chdir, some cmd)
  | none : ¬ Dash os (decide (mode = .only_cd_chdir)) line → (mode ≠ .only_cd_chdir → ¬ ∃ t d, Token os line t ∧ Names os mode t d) → Intercepts os line mode (.none, none)

/-! The directory history: the directories at each prompt. -/

/-- The most recent directory that is not the current one. -/
def Previous (visits : List (List Nat)) (d : List Nat) : Prop :=
  ∃ a b cwd, visits = a ++ [d] ++ b ++ [cwd] ∧ lower d ≠ lower cwd ∧ ∀ x ∈ b, lower x = lower cwd

/-- The last `n`. -/
def newest (n : Nat) (l : List (List Nat)) : List (List Nat) := (l.reverse.take n).reverse

/-- Without directories that are the same as the one before, which is `p` for the first. -/
def movesFrom (p : List Nat) : List (List Nat) → List (List Nat)
  | [] => []
  | x :: r => if lower x = lower p then movesFrom p r else x :: movesFrom x r

def moves : List (List Nat) → List (List Nat)
  | [] => []
  | x :: r => x :: movesFrom x r

/-- Without directories that come again. -/
def latest : List (List Nat) → List (List Nat)
  | [] => []
  | x :: r => if lower x ∈ r.map lower then latest r else x :: latest r

end Clink.Intercept.Spec
