import Verif.Model.Display

/-!
Model of marking rows that are scrolled, and of redrawing a row.
Source: clink/lib/src/display_readline.cpp (`display_lines::apply_scroll_markers`, `display_manager::update_line`, `shift_cols`,
`move_to_column`, `clear_to_eol`), readline/readline/mbutil.c (`_rl_find_prev_utf8char`).

A row is a `Display.Row`; its text has the bytes with their faces.  What is sent to the terminal is a list of operations; the
position of the cursor (`_rl_last_c_pos`) is kept as the code does it.  Not modelled: the work around for consoles that are scrolled
horizontally (`m_horizpos_workaround` is null), moving to the row and finishing a pending wrap, the debug code.  The terminal has
all the capabilities (`_rl_term_IC`, `_rl_term_DC`, `_rl_term_ch`, `_rl_term_clreol`).
-/

namespace Clink.Redraw

open Doskey (peek next)
open Ellipsify (Env)
open Display (Row Ch chars)

abbrev Text := List (Nat × Nat)

def bytes (t : Text) : List Nat := t.map (·.1)

theorem bytes_ne {t : Text} (h : t ≠ []) : bytes t ≠ [] := by simpa [bytes] using h

/-- `character_wcwidth_onectrl`, terminal/include/terminal/wcwidth.h:46. -/
def onectrl (ch : Ch) : Nat := if ch.w < 0 then 1 else ch.w.toNat

/-- `clink_wcswidth`, wcwidth_iter.cpp:10-19. -/
def wcs (env : Env) (t : Text) : Nat := ((chars env (bytes t)).map onectrl).sum

/-- `FACE_SCROLL`, `FACE_NORMAL`, lib/include/lib/display_readline.h. -/
def faceScroll : Nat := 60
def faceNormal : Nat := 48

/-- `FACE_HISTEXPAND1` or `FACE_HISTEXPAND2`. -/
def hist (f : Nat) : Bool := f == 33 || f == 63

/-- `UTF8_MBFIRSTCHAR`, rlmbutil.h:214. -/
def firstByte (b : Nat) : Bool := 0xc0 ≤ b

/-- The loop of `_rl_find_prev_utf8char`, mbutil.c:334-351: the byte last read, the bytes before it (the last one first), and how far back it
is.  Gives how many bytes the result is before the end. -/
def backGo : Nat → List Nat → Nat → Nat
  | b, [], n => if firstByte b then n else 1
  | _, c :: r, n => if c = 0 || firstByte c then (if firstByte c then n + 1 else 1) else backGo c r (n + 1)

/-- `_rl_find_prev_utf8char` with `MB_FIND_ANY`, mbutil.c:308-355: the length of the last character. -/
def lastLen (l : List Nat) : Nat :=
  match l.reverse with
  | [] => 0
  | b :: r => if b < 128 then 1 else backGo b r 1

theorem backGo_pos : ∀ (r : List Nat) (b n : Nat), 0 < n → 0 < backGo b r n
  | [], b, n, h => by unfold backGo; split <;> omega
  | c :: r, b, n, h => by
    unfold backGo
    split
    · split <;> omega
    · exact backGo_pos r c (n + 1) (by omega)

theorem lastLen_pos {l : List Nat} (h : l ≠ []) : 0 < lastLen l := by
  unfold lastLen
  split
  · rename_i hr; simp at hr; exact absurd hr h
  · split
    · omega
    · exact backGo_pos _ _ _ (by omega)

/-- Where the rows begin to differ, display_readline.cpp:2524-2579: the columns and bytes passed, those at the last place where a run of the faces for history
expansion is not divided, and `histface`. -/
structure Left where
  col : Nat
  ind : Nat
  wcol : Nat
  wind : Nat
  histface : Nat

/-- The loop, display_readline.cpp:2537-2571. -/
def leftGo : List Ch → List Ch → Text → Text → Left → Left
  | oc :: os, dc :: ds, o, d, s =>
    if oc.bytes.length ≠ dc.bytes.length then s
    else if o.take dc.bytes.length ≠ d.take dc.bytes.length then s
    else
      let bytes := dc.bytes.length
      let s := { s with col := s.col + onectrl dc, ind := s.ind + bytes }
      let face := ((d.take bytes).getLast?.map (·.2)).getD 0
      let rest := d.drop bytes
      if !hist face then leftGo os ds (o.drop bytes) rest { s with histface := 0, wcol := s.col, wind := s.ind }
      else if face ≠ s.histface then
        let s := { s with histface := face }
        if rest ≠ [] ∧ rest.head?.map (·.2) ≠ some face then leftGo os ds (o.drop bytes) rest { s with wcol := s.col, wind := s.ind }
        else leftGo os ds (o.drop bytes) rest s
      else leftGo os ds (o.drop bytes) rest s
  | _, _, _, _, s => s

/-- Where they end to differ, display_readline.cpp:2581-2624: how much is left of both, at the last place before an ASCII character. -/
def rightGo (o d : Text) (bo bd : Nat) : Nat × Nat :=
  if _h : o = [] ∨ d = [] then (bo, bd)
  else
    let n := lastLen (bytes d)
    if lastLen (bytes o) ≠ n then (bo, bd)
    else if o.drop (o.length - n) ≠ d.drop (d.length - n) then (bo, bd)
    else if n = 1 then rightGo (o.take (o.length - n)) (d.take (d.length - n)) (o.length - n) (d.length - n)
    else rightGo (o.take (o.length - n)) (d.take (d.length - n)) bo bd
termination_by d.length
decreasing_by
  all_goals
    have h1 : d ≠ [] := fun h => _h (.inr h)
    have h2 : 0 < lastLen (bytes d) := lastLen_pos (bytes_ne h1)
    have h3 : 0 < d.length := List.length_pos_iff.2 h1
    simp only [List.length_take]
    omega

/-- Whether it is possible to clear to the end of the row, display_readline.cpp:2637-2652: `n` more bytes are looked at, going back from the
index.  None if that goes before the start of the memory. -/
def eolGo (d : Text) : Nat → Nat → Option Bool
  | 0, _ => some true
  | n + 1, i =>
    if d[i]? ≠ some (32, faceNormal) then some false
    else if n = 0 then some true
    else if i = 0 then none
    else eolGo d n (i - 1)

/-- The run of a face for history expansion, display_readline.cpp:2657-2670: how much is added to the part `m` that differs; `s` is behind it. -/
def histMore (m s : Text) : Nat :=
  match m.getLast? with
  | none => 0
  | some p => if hist p.2 then (s.takeWhile fun q => q.2 == p.2).length else 0

/-- The variables of `update_line`. -/
structure Plan where
  lcol : Nat
  rcol : Nat
  lind : Nat
  rind : Nat
  delta : Int
  eol : Bool
  deriving DecidableEq, Repr

/-- Finding the difference, display_readline.cpp:2514-2691; `rp` is `has_rprompt`, `toeol` is `use_eol_opt` before. -/
def diff (env : Env) (rp toeol : Bool) (o d : Row) : Option Plan :=
  let l := leftGo (chars env (bytes o.text)) (chars env (bytes d.text)) o.text d.text ⟨d.x, 0, d.x, 0, 0⟩
  let ot := o.text.drop l.wind
  let dt := d.text.drop l.wind
  let (on, dn) := if rp then (ot.length, dt.length) else rightGo ot dt ot.length dt.length
  let eol := if !rp && toeol then eolGo d.text (dt.length - dn) (l.wind + dn) else some toeol
  let more := if rp then 0 else histMore (dt.take dn) (dt.drop dn)
  let olen := on + more
  let dlen := dn + more
  let dcols := wcs env (dt.take dlen)
  let delta : Int := if olen < ot.length then (dcols : Int) - (wcs env (ot.take olen) : Int) else 0
  eol.map fun e => ⟨l.wcol, l.wcol + dcols, l.wind, l.wind + dlen, delta, e⟩

/-- What is sent to the terminal. -/
inductive Op
  /-- The cursor goes to a column. -/
  | col (c : Nat)
  /-- Insert cells at the cursor, what follows goes to the right. -/
  | insert (n : Nat)
  /-- Delete cells at the cursor, what follows goes to the left. -/
  | delete (n : Nat)
  /-- Text with faces. -/
  | put (t : Text)
  | spaces (n : Nat)
  /-- Clear from the cursor to the end of the row. -/
  | clear
  deriving DecidableEq, Repr

/-- What has been sent, and `_rl_last_c_pos`. -/
structure Out where
  ops : List Op := []
  col : Nat
  deriving DecidableEq, Repr

/-- `move_to_column`, display_readline.cpp:2741-2775. -/
def Out.moveTo (s : Out) (c : Nat) : Out := if c = s.col then s else { ops := s.ops ++ [.col c], col := c }

/-- `shift_cols`, display_readline.cpp:2824-2880; the cursor is there already. -/
def Out.shift (s : Out) (delta : Int) : Out :=
  if 0 < delta then { s with ops := s.ops ++ [.insert delta.toNat] }
  else if delta < 0 then { s with ops := s.ops ++ [.delete (-delta).toNat] }
  else s

/-- `clear_to_eol`, display_readline.cpp:2795-2821. -/
def Out.clear (s : Out) (count : Nat) : Out := if count = 0 then s else { s with ops := s.ops ++ [.clear] }

/-- What is done with a plan, display_readline.cpp:2693-2736, without the pending wrap. -/
def draw (W : Nat) (o : Option Row) (d : Row) (p : Plan) (s : Out) : Out :=
  let s :=
    match o with
    | some o => if d.x < o.x then (s.moveTo d.x).shift ((d.x : Int) - o.x) else s
    | none => s
  let s := (s.moveTo p.lcol).shift p.delta
  let s : Out := { ops := s.ops ++ [.put ((d.text.drop p.lind).take (p.rind - p.lind))], col := p.rcol }
  let lastcol := match o with | some o => o.lastcol | none => W
  if d.lastcol < lastcol then
    if p.eol then s.clear (W - p.rcol)
    else
      let s := s.moveTo d.lastcol
      { ops := s.ops ++ [.spaces (lastcol - d.lastcol)], col := s.col + (lastcol - d.lastcol) }
  else s

/-- `update_line`, display_readline.cpp:2480-2738, from the cursor column `col`: `o` is what the row shows, `d` is what it should show.  None if memory
outside of the row is read. -/
def updateLine (env : Env) (W : Nat) (rp toeol : Bool) (o : Option Row) (d : Row) (col : Nat) : Option Out :=
  let full : Plan := ⟨d.x, d.lastcol + d.trail, 0, d.text.length, 0, !rp && toeol⟩
  match o with
  | none => some (draw W none d full { col := col })
  | some r =>
    if r.x = d.x ∧ r.text = d.text then some { col := col }
    else if d.x ≤ r.x then (diff env rp (!rp && toeol) r d).map fun p => draw W o d p { col := col }
    else some (draw W o d full { col := col })

/-! ### Marks -/

/-- `_rl_find_prev_utf8char` with `MB_FIND_NONZERO`: the length of the last character that has a width with all that follows it; `WCWIDTH` is `wcwidth`. -/
def lastNonzero (env : Env) (l : List Nat) : Nat :=
  if h : l = [] then 0
  else
    let n := lastLen l
    let rest := l.take (l.length - n)
    if n = 1 && (l.getLast?.getD 0) < 128 || 0 < env.wc (peek (l.drop (l.length - n))) then n else n + lastNonzero env rest
termination_by l.length
decreasing_by
  have h2 : 0 < lastLen l := lastLen_pos h
  have h3 : 0 < l.length := List.length_pos_iff.2 h
  simp only [List.length_take]
  omega

/-- The mark at the start of the first row that is shown, display_readline.cpp:901-945; `c_horz_scroll_indicator_chars` is 1.  The spaces for a wide
character go behind the text. -/
def markFirst (env : Env) (d : Row) : Row :=
  if d.text = [] then { d with text := [(60, faceScroll)] }
  else go d.text 0 (chars env (bytes d.text))
where
  /-- The characters up to the first one that has a width; `n` bytes are before it. -/
  go (t : Text) (n : Nat) : List Ch → Row
  | [] => d
  | ch :: r =>
    if onectrl ch = 0 then go t (n + ch.bytes.length) r
    else
      { d with text := (60, faceScroll) :: t.drop (n + ch.bytes.length) ++ List.replicate (onectrl ch - 1) (32, faceNormal), trail := d.trail + (onectrl ch - 1) }

/-- Making room for the mark, display_readline.cpp:957-962.  None if it never ends. -/
def makeRoom (env : Env) (W x : Nat) (t : Text) (lastcol : Nat) : Option (Text × Nat) :=
  if W ≤ x + lastcol + 1 then
    if _h : t = [] then none
    else
      let n := lastNonzero env (bytes t)
      makeRoom env W x (t.take (t.length - n)) (lastcol - wcs env (t.drop (t.length - n)))
  else some (t, lastcol)
termination_by t.length
decreasing_by
  have h2 : 0 < lastNonzero env (bytes t) := by
    rw [lastNonzero, dif_neg (bytes_ne _h)]
    have : 0 < lastLen (bytes t) := lastLen_pos (bytes_ne _h)
    simp only
    split <;> omega
  have h3 : 0 < t.length := List.length_pos_iff.2 _h
  simp only [List.length_take]
  omega

/-- The mark at the end of the last row that is shown, display_readline.cpp:953-978. -/
def markLast (env : Env) (W : Nat) (d : Row) : Option Row :=
  if d.lastcol - d.x ≤ 2 then some d
  else
    (makeRoom env W d.x (d.text.take (d.text.length - d.trail)) d.lastcol).map fun (t, lastcol) =>
      let pad := W - (d.x + lastcol + 2)
      { d with text := t ++ List.replicate pad (32, faceNormal) ++ [(62, faceScroll)], lastcol := lastcol + pad + 1 }

/-- `apply_scroll_markers`, display_readline.cpp:893-980: the rows `top` to `bottom` are shown; `botlin` is `m_prompt_botlin`. -/
def applyMarks (env : Env) (W botlin top bottom : Nat) (rows : List Row) : Option (List Row) :=
  let rows := if botlin < top then rows.modify top (markFirst env) else rows
  if bottom + 1 < rows.length then
    match rows[bottom]? with
    | none => some rows
    | some d => (markLast env W d).map fun d => rows.set bottom d
  else some rows

end Clink.Redraw
