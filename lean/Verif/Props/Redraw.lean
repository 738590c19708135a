import Verif.Proof.RedrawMark
import Verif.Proof.RedrawRows
import Verif.Props.Display

/-!
C48: redrawing a row.  C46: the marks.
-/

namespace Clink.Redraw

open Doskey.Spec (flat)
open Ellipsify (Env demo)
open Ellipsify.Spec (Glyph Glyphs Plain)
open Display (Row Setup View parse)
open Display.Spec (Arranged Holds Piece Line pieces OnLastMark InView)
open Spec

variable {env : Env}

/-- Whatever is drawn where a row was, the new row is shown then, and the cursor is where the code believes it to be; if only a part is drawn and the terminal may be
told to clear to the end, then the new row must not start with a space, nor have two spaces in a row and be shorter. -/
theorem C48_update (hz : env.variant 0 = false) (ha : Ascii env) {W : Nat} {p l : List Cell} {o : Option Row} {d : Row} (ho : ∀ r, o = some r → Fits env W r)
    (hd : Fits env W d) (hx : d.x < W) (hf : OneFace env d.text) {toeol : Bool}
    (he : toeol = false ∨ ∀ r, o = some r → d.x ≤ r.x → d.text.head? ≠ some (32, 48) ∧ (r.lastcol ≤ d.lastcol ∨ ¬ TwoSpaces d.text))
    (hb : Before env W p o d l) (col : Nat) :
    ∃ out, updateLine env W false toeol o d col = some out ∧ (∃ s', Steps env out.ops ⟨l, col⟩ s') ∧
      ∀ s', Steps env out.ops ⟨l, col⟩ s' → Shows env W p d s'.cells ∧ s'.col = out.col := by
  have hb0 := hb
  obtain ⟨hp, hw, hl, hb⟩ := hb
  cases o with
  | none =>
    obtain ⟨r, hr⟩ := hb
    have hlen : p.length + r.length = W := by rw [← hl, hr]; simp
    have := does_full (eol := !false && toeol) (col := col) (e := W) hz ha hd hx hp hw hl hr (by
      rw [List.drop_eq_nil_of_le (by omega)]; intro x hx; simp at hx) (Nat.le_refl W)
    refine ⟨_, rfl, ?_⟩
    unfold draw
    simp only [out_shift_zero, List.drop_zero, Nat.sub_zero, List.take_length]
    exact this
  | some r =>
    unfold updateLine
    simp only
    split
    · rename_i hsame
      refine ⟨_, rfl, ?_⟩
      have := does_start (env := env) (c := col) (Q := Shows env W p d) (l := l) (by
        simp only [if_pos (show d.x ≤ r.x by omega)] at hb
        obtain ⟨q, t, n, h1, h2, h3⟩ := hb
        have hq : q = [] := List.length_eq_zero_iff.1 (by omega)
        refine ⟨hp, hl, t, n, by rw [← hsame.2]; exact h1, by rw [h2, hq]; simp⟩)
      exact this
    · rename_i hne
      split
      · rename_i hle
        obtain ⟨plan, h1, h2⟩ := does_diff (col := col) (toeol := toeol) hz ha (ho r rfl) hd hx hf (he.imp id fun h => h r rfl hle) hle hne hb0
        refine ⟨_, by rw [show (!false && toeol) = toeol by simp, h1]; rfl, h2⟩
      · rename_i hgt
        simp only [if_neg hgt] at hb
        obtain ⟨q, n, h1, h2⟩ := hb
        have := does_full (eol := !false && toeol) (col := col) (e := r.lastcol) hz ha hd hx hp hw hl (r := q ++ List.replicate n .blank) (by rw [h1]; simp) (by
          rw [← h2, List.drop_left]; exact allBlank_rep n) (by have := (ho r rfl).room; omega)
        refine ⟨_, rfl, ?_⟩
        unfold draw
        dsimp only
        rw [if_neg (show ¬ d.x < r.x by omega)]
        simp only [out_shift_zero, List.drop_zero, Nat.sub_zero, List.take_length]
        exact this

/-- What a row shows can be what is there when the next one is drawn behind the same prompt. -/
theorem C48_again {W : Nat} {p l : List Cell} {o d : Row} (h : Shows env W p o l) (hp : Whole p) (hx : d.x = o.x) : Before env W p (some o) d l := by
  obtain ⟨h1, h2, t, n, h3, h4⟩ := h
  refine ⟨by omega, hp, h2, ?_⟩
  simp only [if_pos (show d.x ≤ o.x by omega)]
  exact ⟨[], t, n, h3, by simpa using h4, by simp [h1]⟩

/-- The rows of a line all of whose characters have a width, except newlines, are as required. -/
theorem C48_rows (ha : Ascii env) (hn : Newline env) {W x total : Nat} {lf : Bool} {cs : List Nat} {gs : List (List Nat × Int)} {rows : List (List Piece)}
    (h : Line env cs gs) (hc : ∀ c ∈ cs, c ≠ 10 → 0x20 ≤ c ∧ c ≠ 0x7f) (hg : Wide lf gs) (hx : x ≤ W) (hw : ∀ q ∈ pieces lf 0 gs, q.width ≤ W)
    (hr : Arranged W x (pieces lf 0 gs) rows) {A B : List (List Piece)} {r : List Piece} (hs : rows = A ++ r :: B) {face : Nat → Nat} {d : Row}
    (hd : Holds W x total face A r B d) : Fits env W d :=
  row_fits ha h hc hg hx hw hr hs hd hn

/-- The mark at the end of the last row is in the last column but one; what there is before it stays, except for characters for which there is no room. -/
theorem C46_mark_place (hz : env.variant 0 = false) (ha : Ascii env) {W : Nat} (hW : 2 ≤ W) {d : Row} {t : Text} {cs : List Nat} (hx : d.x = 0) (hl : 2 < d.lastcol)
    (ht : d.text = t ++ List.replicate d.trail (32, 48)) (hp : PlainText env t cs) (hc : d.lastcol = plainCols env cs) :
    ∃ d' c1 c2 t1 t2 l1 n, markLast env W d = some d' ∧ cs = c1 ++ c2 ∧ t = t1 ++ t2 ∧ bytes t1 = flat c1 ∧ Drawn env t1 l1 ∧
      l1.length + n + 2 = W ∧ (∀ c r, c2 = c :: r → W ≤ plainCols env (c1 ++ [c]) + 1) ∧
      d' = { d with text := t1 ++ List.replicate n (32, 48) ++ [(62, 60)], lastcol := W - 1 } ∧
      Drawn env d'.text (l1 ++ List.replicate n .blank ++ [.part [(62, 60)] 0 1]) :=
  mark_place hz ha hW hx hl ht hp hc

/-! ### Witnesses -/

def asText (s : String) : Text := s.toList.map fun c => (c.toNat, 48)

def asRow (s : String) : Row := { text := asText s, lastcol := s.toList.length }

theorem demo_ascii : Ascii demo := fun c h1 h2 => ⟨Ellipsify.demo_plain h1 h2, by
  simp only [demo]
  rw [if_neg (by simp; omega), if_neg (by simp; omega), if_neg (by simp; omega)]⟩

theorem demo_newline : Newline demo := ⟨by decide, by decide, by decide, by decide⟩

theorem seen_ascii (ha : Ascii env) (f : Nat) : ∀ (cs : List Nat), (∀ c ∈ cs, 0x20 ≤ c ∧ c < 0x7f) → Seen env (cs.map fun c => (c, f)) (cs.map fun c => ([(c, f)], 1))
  | [], _ => ⟨[], [], rfl, by simp, .nil, rfl⟩
  | c :: cs, h => by
    obtain ⟨k1, k2⟩ := h c (by simp)
    have h1 : Seen env [(c, f)] [([(c, f)], 1)] := by
      obtain ⟨hp, hw⟩ := ha c k1 k2
      refine ⟨[c], [([c], 1)], by rw [Display.flat_one (by omega)]; rfl, ?_, ?_, ?_⟩
      · simp only [List.mem_singleton, forall_eq]
        exact ⟨hp.text, k1, by omega⟩
      · rw [← hw]
        have := Ellipsify.glyphs_plain (env := env) [c] (by simpa using hp)
        simpa [Ellipsify.singles] using this
      · simp only [split, Display.flat_one (show c < 128 by omega)]
        rfl
    have := seen_append ha h1 (seen_ascii ha f cs fun x hx => h x (by simp [hx])) (by
      intro p hp
      obtain ⟨x, hx, rfl⟩ := List.mem_map.1 (List.mem_of_head? hp)
      have := h x (by simp [hx])
      dsimp only; omega)
    simpa using this

def Typed (s : String) : Prop := ∀ c ∈ s.toList.map Char.toNat, 0x20 ≤ c ∧ c < 0x7f

instance (s : String) : Decidable (Typed s) := by unfold Typed; infer_instance

theorem asText_eq (s : String) : asText s = (s.toList.map Char.toNat).map fun c => (c, 48) := by simp [asText, Function.comp_def]

def asCells (s : String) : List Cell := (s.toList.map Char.toNat).map fun c => if c = 32 then .blank else .part [(c, 48)] 0 1

theorem drawn_ascii (ha : Ascii env) {s : String} (h : Typed s) : Drawn env (asText s) (asCells s) := by
  refine ⟨_, by rw [asText_eq]; exact seen_ascii ha 48 _ h, ?_, ?_⟩
  · intro g hg
    obtain ⟨c, -, rfl⟩ := List.mem_map.1 hg
    simp
  · unfold asCells
    generalize s.toList.map Char.toNat = cs
    induction cs with
    | nil => rfl
    | cons c cs ih =>
      simp only [List.map_cons, List.flatMap_cons, ← ih]
      by_cases hc : c = 32
      · simp [cells, hc]
      · simp [cells, hc]

theorem drawn_unique (hz : env.variant 0 = false) {t : Text} {l l' : List Cell} (h : Drawn env t l) (h' : Drawn env t l') : l = l' := by
  obtain ⟨g, h1, -, rfl⟩ := h
  obtain ⟨g', h2, -, rfl⟩ := h'
  rw [seen_unique hz h1 h2]

theorem fits_ascii (ha : Ascii env) {s : String} (h : Typed s) {W : Nat} (hW : s.toList.length ≤ W) : Fits env W (asRow s) :=
  ⟨⟨asCells s, drawn_ascii ha h, by simp [asRow, asCells]⟩, ⟨_, (List.append_nil _).symm⟩, by simpa [asRow] using hW⟩

theorem face_ascii (hz : env.variant 0 = false) (ha : Ascii env) {s : String} (h : Typed s) : OneFace env (asText s) := by
  intro gs hs
  rw [asText_eq] at hs
  rw [seen_unique hz hs (seen_ascii ha 48 _ h)]
  intro g hg
  obtain ⟨c, -, rfl⟩ := List.mem_map.1 hg
  intro p hp q hq
  simp at hp hq
  rw [hp, hq]

theorem shows_ascii (ha : Ascii env) {s : String} (h : Typed s) {W : Nat} (hW : s.toList.length ≤ W) :
    Shows env W [] (asRow s) (asCells s ++ List.replicate (W - s.toList.length) .blank) :=
  ⟨rfl, by simp [asCells]; omega, _, _, drawn_ascii ha h, rfl⟩

/-- If the new row is shorter and has two spaces before what is the same at the end, the end is lost: typed text `q   b` is shown as `q` where `qyyyyyy b` was. -/
theorem C48_end_lost : ∃ o d : Row, Fits demo 20 o ∧ Fits demo 20 d ∧ OneFace demo d.text ∧ ∃ l, Shows demo 20 [] o l ∧
    ∃ out, updateLine demo 20 false true (some o) d 0 = some out ∧ (∃ s', Steps demo out.ops ⟨l, 0⟩ s') ∧ ∀ s', Steps demo out.ops ⟨l, 0⟩ s' → ¬ Shows demo 20 [] d s'.cells := by
  refine ⟨asRow "qyyyyyy b", asRow "q   b", fits_ascii demo_ascii (by decide +kernel) (by decide +kernel), fits_ascii demo_ascii (by decide +kernel) (by decide +kernel),
    face_ascii rfl demo_ascii (by decide +kernel), _, shows_ascii demo_ascii (by decide +kernel) (by decide +kernel),
    ⟨[.col 1, .delete 4, .put (asText "  "), .clear], 3⟩, by decide +kernel, ?_⟩
  have hlen : (asCells "qyyyyyy b" ++ List.replicate (20 - "qyyyyyy b".toList.length) Cell.blank).length = 20 := by decide +kernel
  generalize asCells "qyyyyyy b" ++ List.replicate (20 - "qyyyyyy b".toList.length) Cell.blank = l0 at hlen
  have cut : ∀ (l : List Cell) (i j : Nat), l = l.take i ++ (l.drop i).take j ++ (l.drop i).drop j := by intro l i j; rw [List.append_assoc, List.take_append_drop, List.take_append_drop]
  have h0 : Does demo ⟨l0, 0⟩ ⟨[], 0⟩ fun l => l.length = 20 := does_start hlen
  have h1 : Does demo ⟨l0, 0⟩ ⟨[.col 1], 1⟩ fun l => l.length = 20 := does_move (c := 1) h0 fun l hl => by omega
  have h2 : Does demo ⟨l0, 0⟩ ⟨[.col 1, .delete 4], 1⟩ fun l => l.length = 20 := does_delete (n := 4) h1 fun l hl =>
    ⟨_, _, _, cut l 1 4, by simp [hl], by simp [hl], fun a' c' m1 m2 => by
      have k1 := m1.1
      have k2 := m2.1
      simp only [List.length_take, List.length_drop, hl] at k1 k2
      simp only [List.length_append, List.length_replicate]; omega⟩
  have h3 : Does demo ⟨l0, 0⟩ ⟨[.col 1, .delete 4, .put (asText "  ")], 3⟩ fun l => l.length = 20 :=
    does_put (t := asText "  ") (k := 3) h2 (drawn_ascii demo_ascii (by decide +kernel)) (fun l' hl' => drawn_unique rfl hl' (drawn_ascii demo_ascii (by decide +kernel)))
      (by decide +kernel) fun l hl =>
    ⟨_, _, _, cut l 1 2, by simp [hl], by simp [hl, asCells], fun a' c' m1 m2 => by
      have k1 := m1.1
      have k2 := m2.1
      simp only [List.length_take, List.length_drop, hl] at k1 k2
      have k3 : (asCells "  ").length = 2 := by decide +kernel
      simp only [List.length_append, k3]; omega⟩
  have h4 : Does demo ⟨l0, 0⟩ ⟨[.col 1, .delete 4, .put (asText "  "), .clear], 3⟩ fun l => l[4]? = some .blank :=
    does_clear (n := 17) h3 fun l hl =>
    ⟨_, _, (List.take_append_drop 3 l).symm, by simp [hl], by simp [hl], fun a' m1 => by
      have k1 := m1.1
      simp only [List.length_take, hl] at k1
      rw [List.getElem?_append_right (by omega), List.getElem?_replicate, if_pos (by omega)]⟩
  refine ⟨h4.1, fun s' hs => ?_⟩
  rintro ⟨-, -, t, n, ht, he⟩
  have := (h4.2 s' hs).1
  rw [he, drawn_unique rfl ht (drawn_ascii demo_ascii (by decide +kernel)), List.nil_append, List.getElem?_append_left (by decide +kernel)] at this
  revert this
  decide +kernel

/-- If the new row starts with a space, memory before it is read: ` b` where `xyz b` was. -/
theorem C48_reads_before : ∃ o d : Row, Fits demo 20 o ∧ Fits demo 20 d ∧ OneFace demo d.text ∧ o.x = d.x ∧ updateLine demo 20 false true (some o) d 0 = none :=
  ⟨asRow "xyz b", asRow " b", fits_ascii demo_ascii (by decide +kernel) (by decide +kernel), fits_ascii demo_ascii (by decide +kernel) (by decide +kernel),
    face_ascii rfl demo_ascii (by decide +kernel), rfl, by decide +kernel⟩

/-- The mark of an empty first row has a cell, but the code believes that it has none: the cursor is not where it should be. -/
theorem C48_mark_empty (l : List Cell) (hl : l.length = 20) : ∃ out, updateLine demo 20 false true none (markFirst demo {}) 0 = some out ∧ out.col = 0 ∧
    (∃ s', Steps demo out.ops ⟨l, 0⟩ s') ∧ ∀ s', Steps demo out.ops ⟨l, 0⟩ s' → s'.col = 1 := by
  refine ⟨⟨[.put [(60, 60)], .clear], 0⟩, by decide +kernel, rfl, ?_⟩
  have cut : ∀ (l : List Cell) (i j : Nat), l = l.take i ++ (l.drop i).take j ++ (l.drop i).drop j := by intro l i j; rw [List.append_assoc, List.take_append_drop, List.take_append_drop]
  have hs := seen_ascii demo_ascii 60 [60] (by decide)
  have hd : Drawn demo [(60, 60)] [.part [(60, 60)] 0 1] := ⟨_, hs, by simp, by decide⟩
  have h1 : Does demo ⟨l, 0⟩ ⟨[.put [(60, 60)]], 1⟩ fun l => l.length = 20 :=
    does_put (k := 1) (does_start (Q := fun l => l.length = 20) hl) hd (fun l' hl' => drawn_unique rfl hl' hd) rfl fun l hl =>
    ⟨_, _, _, cut l 0 1, by simp, by simp [hl], fun a' c' m1 m2 => by
      have k1 := m1.1
      have k2 := m2.1
      simp only [List.length_take, List.length_drop, hl] at k1 k2
      simp only [List.length_append, List.length_cons, List.length_nil]; omega⟩
  have h2 : Does demo ⟨l, 0⟩ ⟨[.put [(60, 60)], .clear], 1⟩ fun _ => True :=
    does_clear (n := 19) h1 fun l hl => ⟨_, _, (List.take_append_drop 1 l).symm, by simp [hl], by simp [hl], fun _ _ => trivial⟩
  exact ⟨h2.1, fun s' hs => (h2.2 s' hs).2⟩

/-- If the first row starts with a wide character, the mark takes one cell of it, and the space for the other one goes to the end of the row: what follows is shown one column
to the left of where it should be. -/
theorem C48_mark_wide : ∃ d : Row, Fits demo 20 d ∧ d.text = (flat [0x4e16]).map (fun b => (b, 48)) ++ asText "ab" ∧
    (∃ l, Drawn demo d.text l ∧ l[2]? = some (.part [(97, 48)] 0 1)) ∧ ∃ l, Drawn demo (markFirst demo d).text l ∧ l[1]? = some (.part [(97, 48)] 0 1) := by
  have hs : Seen demo ((flat [0x4e16]).map (fun b => (b, 48)) ++ asText "ab") ([((flat [0x4e16]).map (fun b => (b, 48)), 2)] ++ [([(97, 48)], 1), ([(98, 48)], 1)]) := by
    refine seen_append demo_ascii ⟨[0x4e16], [([0x4e16], 2)], by decide +kernel, ?_, ?_, by decide +kernel⟩ (by
      rw [asText_eq]; exact seen_ascii demo_ascii 48 _ (by decide +kernel)) (by intro p hp; have := List.mem_of_head? hp; revert p; decide +kernel)
    · simp only [List.mem_singleton, forall_eq]; decide
    · have := Ellipsify.glyphs_plain (env := demo) [0x4e16] (by
        simp only [List.mem_singleton, forall_eq]; exact Ellipsify.demo_plain_wide (by decide) (by decide))
      exact this
  have hd : Drawn demo ((flat [0x4e16]).map (fun b => (b, 48)) ++ asText "ab") (cellsOf ([((flat [0x4e16]).map (fun b => (b, 48)), 2)] ++ [([(97, 48)], 1), ([(98, 48)], 1)])) :=
    ⟨_, hs, by decide +kernel, rfl⟩
  refine ⟨{ text := (flat [0x4e16]).map (fun b => (b, 48)) ++ asText "ab", lastcol := 4 }, ⟨⟨_, hd, by decide +kernel⟩, ⟨_, (List.append_nil _).symm⟩, by decide⟩, rfl,
    ⟨_, hd, by decide +kernel⟩, ?_⟩
  have ht : (markFirst demo { text := (flat [0x4e16]).map (fun b => (b, 48)) ++ asText "ab", lastcol := 4 }).text = [60].map (fun c => (c, 60)) ++ asText "ab " := by decide +kernel
  rw [ht]
  refine ⟨_, ⟨_, seen_append demo_ascii (seen_ascii demo_ascii 60 [60] (by decide)) (by
    rw [asText_eq]; exact seen_ascii demo_ascii 48 _ (by decide +kernel)) (by intro p hp; have := List.mem_of_head? hp; revert p; decide +kernel), by decide +kernel, rfl⟩, by decide +kernel⟩

/-- What is needed for scrolling, from the rows. -/
def viewOf (su : Setup) (maxRows height : Nat) (s : Display.Lines) : View :=
  ⟨0, maxRows, height, su.width, s.all.length, s.vpos, s.cpos, fun i => (s.all[i]?.map (·.x)).getD 0⟩

/-- The cursor can be on the mark at the end of the last row that is shown: the display is scrolled only if the cursor is in the last column. -/
theorem C46_on_last_mark : ∃ (su : Setup) (cs : List Nat), su.width = 5 ∧ OnLastMark (viewOf su 2 25 (parse demo su 0 2 cs)) ((viewOf su 2 25 (parse demo su 0 2 cs)).top 0) ∧
    InView (viewOf su 2 25 (parse demo su 0 2 cs)) ((viewOf su 2 25 (parse demo su 0 2 cs)).top 0) ∧
    (applyMarks demo 5 0 0 1 (parse demo su 0 2 cs).all).map (fun rows => rows[1]?.map Row.text) =
      some (some [(100, 48), (101, 48), (102, 48), (62, 60)]) ∧ (parse demo su 0 2 cs).cpos = 3 := by
  refine ⟨⟨5, 6, true, fun _ => 48⟩, Tokens.str "abcdefghijklmnop", rfl, ?_, ⟨?_, ?_, ?_, ?_⟩, ?_, ?_⟩
  · unfold OnLastMark; decide +kernel
  all_goals decide +kernel

/-! ### Examples -/

/- `hello` where `help!` was: only the end is drawn. -/
example : updateLine demo 20 false true (some (asRow "help!")) (asRow "hello") 0 = some ⟨[.col 3, .put (asText "lo")], 5⟩ := by decide +kernel
/- Something is inserted. -/
example : updateLine demo 20 false true (some (asRow "dir x y")) (asRow "dir abc x y") 4 = some ⟨[.insert 4, .put (asText "abc ")], 8⟩ := by decide +kernel
/- Something is deleted. -/
example : updateLine demo 20 false true (some (asRow "dir abc x")) (asRow "dir x") 4 = some ⟨[.delete 4, .put [], .col 5, .spaces 4], 9⟩ := by decide +kernel

example : ∃ out, updateLine demo 20 false true (some (asRow "dir abc x")) (asRow "dir x") 4 = some out ∧
    (∃ s', Steps demo out.ops ⟨asCells "dir abc x" ++ List.replicate 11 .blank, 4⟩ s') ∧
    ∀ s', Steps demo out.ops ⟨asCells "dir abc x" ++ List.replicate 11 .blank, 4⟩ s' → Shows demo 20 [] (asRow "dir x") s'.cells ∧ s'.col = out.col :=
  C48_update (o := some (asRow "dir abc x")) (d := asRow "dir x") (p := []) rfl demo_ascii (by rintro r ⟨⟩; exact fits_ascii demo_ascii (by decide +kernel) (by decide +kernel))
    (fits_ascii demo_ascii (by decide +kernel) (by decide +kernel)) (by decide) (face_ascii rfl demo_ascii (by decide +kernel))
    (.inr fun r hr _ => by
      obtain rfl : asRow "dir abc x" = r := by simpa using hr
      refine ⟨by decide +kernel, .inr ?_⟩
      rintro ⟨a, b, h⟩
      have h1 : asText "dir x" = [(100, 48), (105, 48), (114, 48), (32, 48), (120, 48)] := by decide +kernel
      have h1 : [(100, 48), (105, 48), (114, 48), (32, 48), (120, 48)] = a ++ (32, 48) :: (32, 48) :: b := by rw [← h1]; exact h
      have h2 := congrArg List.length h1
      match a, h1, h2 with
      | [], h1, _ => simp at h1
      | [_], h1, _ => simp at h1
      | [_, _], h1, _ => simp at h1
      | [_, _, _], h1, _ => simp at h1
      | _ :: _ :: _ :: _ :: a, _, h2 => simp at h2; omega)
    (C48_again (o := asRow "dir abc x") (shows_ascii (s := "dir abc x") demo_ascii (by decide +kernel) (by decide +kernel)) .nil rfl) 4

/- The rows of `ab世`, a newline and `c` with 5 columns behind a prompt of two. -/
example {rows A B : List (List Piece)} {r : List Piece} {d : Row}
    (hr : Arranged 5 2 (pieces true 0 ([0x61, 0x62, 0x4e16, 10, 0x63].map fun c => ([c], demo.wc c))) rows) (hs : rows = A ++ r :: B)
    (hd : Holds 5 2 (flat [0x61, 0x62, 0x4e16, 10, 0x63]).length (fun _ => 48) A r B d) : Fits demo 5 d :=
  C48_rows demo_ascii demo_newline (Display.demo_line _ (by simp only [Display.Simple]; decide +kernel)) (by decide +kernel) (by unfold Wide; decide +kernel) (by decide)
    (by decide +kernel) hr hs hd

/- `defgh` becomes `def>`. -/
example : ∃ d' c1 c2 t1 t2 l1 n, markLast demo 5 (asRow "defgh") = some d' ∧ Tokens.str "defgh" = c1 ++ c2 ∧ asText "defgh" = t1 ++ t2 ∧ bytes t1 = flat c1 ∧ Drawn demo t1 l1 ∧
      l1.length + n + 2 = 5 ∧ (∀ c r, c2 = c :: r → 5 ≤ plainCols demo (c1 ++ [c]) + 1) ∧
      d' = { asRow "defgh" with text := t1 ++ List.replicate n (32, 48) ++ [(62, 60)], lastcol := 4 } ∧
      Drawn demo d'.text (l1 ++ List.replicate n .blank ++ [.part [(62, 60)] 0 1]) :=
  C46_mark_place rfl demo_ascii (by decide) rfl (by decide +kernel) (by simp [asRow]) ⟨by decide +kernel, fun c hc => by
    have : 0x20 ≤ c ∧ c < 0x7f := by revert c; decide +kernel
    exact ⟨Ellipsify.demo_plain this.1 this.2, by omega⟩⟩ (by decide +kernel)
example : (markLast demo 5 (asRow "defgh")).map Row.text = some (asText "def" ++ [(62, 60)]) := by decide +kernel

end Clink.Redraw
