import Verif.Proof.Redraw

/-!
What the terminal shows after a row is redrawn.
-/

namespace Clink.Redraw

open Doskey.Spec (flat)
open Ellipsify (Env)
open Ellipsify.Spec (Glyph Glyphs Plain Flag Starts)
open Display (Row Ch chars)
open Utf (specUtf8 IsText)
open Spec

variable {env : Env}

/-! ### The plan -/

theorem eolGo_some {d : Text} (h0 : d.head? ≠ some (32, 48)) : ∀ n i, ∃ b, eolGo d n i = some b
  | 0, i => ⟨true, rfl⟩
  | n + 1, i => by
    rw [eolGo]
    split
    · exact ⟨false, rfl⟩
    · rename_i hi
      split
      · exact ⟨true, rfl⟩
      · split
        · rename_i hz
          rw [hz] at hi
          rw [List.head?_eq_getElem?] at h0
          exact absurd h0 hi
        · exact eolGo_some h0 n (i - 1)

theorem textOf_append (a b : List (Text × Int)) : textOf (a ++ b) = textOf a ++ textOf b := by simp [textOf]

/-- What is found: the rows are the same up to a place, and from a place on. -/
theorem diff_go (hz : env.variant 0 = false) (ha : Ascii env) {o d : Row} {go gd : List (Text × Int)} (ho : Seen env o.text go) (hd : Seen env d.text gd)
    (po : ∀ g ∈ go, 0 < g.2) (pd : ∀ g ∈ gd, 0 < g.2) (hf : OneFace env d.text) {toeol : Bool} (he : toeol = false ∨ d.text.head? ≠ some (32, 48)) :
    ∃ g0 gu gv gs e, go = g0 ++ gu ++ gs ∧ gd = g0 ++ gv ++ gs ∧ Seen env (textOf gv) gv ∧ Seen env (textOf gs) gs ∧
      diff env false toeol o d = some ⟨d.x + cols g0, d.x + cols g0 + cols gv, (textOf g0).length, (textOf g0).length + (textOf gv).length,
        if gs = [] then 0 else (cols gv : Int) - cols gu, e⟩ ∧
      (e = true → toeol = true ∧ (¬ TwoSpaces d.text → textOf gs = [] ∨ textOf gs = [(32, 48)])) := by
  generalize hl : leftGo (chars env (bytes o.text)) (chars env (bytes d.text)) o.text d.text ⟨d.x, 0, d.x, 0, 0⟩ = l
  obtain ⟨g0, go', gd', r1, r2, r3, r4⟩ : ∃ g0 go' gd', go = g0 ++ go' ∧ gd = g0 ++ gd' ∧ l.wcol = d.x + cols g0 ∧ l.wind = (textOf g0).length := by
    have := leftGo_go hz go gd o.text d.text _ _ ⟨d.x, 0, d.x, 0, 0⟩ ho hd pd (chars_seen hz ho) (chars_seen hz hd)
    rw [hl] at this
    rcases this with ⟨c1, c2⟩ | ⟨g0, go', gd', c1, c2, c3, c4⟩
    · exact ⟨[], go, gd, rfl, rfl, by rw [c1]; rfl, by rw [c2]; rfl⟩
    · exact ⟨g0, go', gd', c1, c2, c3, by rw [c4]; simp⟩
  subst r1 r2
  have so := (seen_between ho).2
  have sd := (seen_between hd).2
  have eo := seen_text ho
  have ed := seen_text hd
  rw [textOf_append] at eo ed
  have dro : o.text.drop l.wind = textOf go' := by rw [r4, ← eo, List.drop_left]
  have drd : d.text.drop l.wind = textOf gd' := by rw [r4, ← ed, List.drop_left]
  obtain ⟨u, v, s, c1, c2, c3, c4⟩ := rightGo_whole (o := textOf go') sd
  rw [c1] at so
  rw [c2] at sd
  obtain ⟨gu, g1, e1, e2, e3⟩ := seen_divide hz ha so c3
  obtain ⟨gv, g1', e4, e5, e6⟩ := seen_divide hz ha sd c3
  have := seen_unique hz e3 e6
  subst this
  subst e1 e4
  obtain ⟨ge, gs, f1, f2⟩ := histMore_go (m := v) e3 (fun g hg => hf _ hd g (by simp [hg]))
  subst f1
  have ee := seen_text e3
  have eu := seen_text e2
  have ev := seen_text e5
  rw [textOf_append] at ee
  have hse : Seen env (textOf ge) ge ∧ Seen env (textOf gs) gs := seen_between e3
  have hedge : Edge (textOf ge) := by
    intro p hp
    refine c3 p ?_
    rw [← ee]
    cases h : textOf ge with
    | nil => rw [h] at hp; simp at hp
    | cons q qs => rw [h] at hp; simpa using hp
  have su : Seen env (u ++ textOf ge) (gu ++ ge) := seen_append ha e2 hse.1 hedge
  have sv : Seen env (v ++ textOf ge) (gv ++ ge) := seen_append ha e5 hse.1 hedge
  have tv : textOf (gv ++ ge) = v ++ textOf ge := seen_text sv
  have hdt : d.text = textOf g0 ++ (v ++ s) := by rw [← ed, c2]
  obtain ⟨e, he1, he2⟩ : ∃ e, (if !false && toeol then eolGo d.text ((v ++ s).length - v.length) (l.wind + v.length) else some toeol) = some e ∧
      (e = true → toeol = true ∧ (¬ TwoSpaces d.text → s = [] ∨ s = [(32, 48)])) := by
    rcases he with rfl | he
    · exact ⟨false, rfl, by simp⟩
    · cases toeol with
      | false => exact ⟨false, rfl, by simp⟩
      | true =>
        obtain ⟨b, hb⟩ := eolGo_some he ((v ++ s).length - v.length) (l.wind + v.length)
        refine ⟨b, by simpa using hb, fun hbt => ⟨rfl, fun h2 => ?_⟩⟩
        subst hbt
        have hdt' : d.text = (textOf g0 ++ v) ++ s := by rw [hdt, List.append_assoc]
        rw [hdt'] at he h2
        obtain ⟨b', hb', hb2⟩ := eolGo_go he h2
        rw [hdt', r4, List.length_append, Nat.add_sub_cancel_left, ← List.length_append, hb'] at hb
        exact hb2 (by simpa using hb)
  refine ⟨g0, gu ++ ge, gv ++ ge, gs, e, by simp, by simp, by rw [tv]; exact sv, hse.2, ?_, ?_⟩
  · unfold diff
    simp only [hl, dro, drd, c1, c2, Bool.false_eq_true, if_false]
    rw [c1, c2] at c4
    simp only [c4]
    rw [he1]
    simp only [Option.map_some, Option.some.injEq, Plan.mk.injEq]
    have hs : s = textOf ge ++ textOf gs := ee.symm
    have hv : (v ++ s).take v.length = v := by simp
    have hv2 : (v ++ s).drop v.length = s := by simp
    rw [hv, hv2, f2]
    have hv3 : (v ++ s).take (v.length + (textOf ge).length) = v ++ textOf ge := by
      rw [← List.length_append, hs, ← List.append_assoc, List.take_left]
    have hu3 : (u ++ s).take (u.length + (textOf ge).length) = u ++ textOf ge := by
      rw [← List.length_append, hs, ← List.append_assoc, List.take_left]
    have pv : ∀ g ∈ gv ++ ge, 0 < g.2 := fun g hg => pd g (by
      rcases List.mem_append.1 hg with h | h <;> simp [h])
    have pu : ∀ g ∈ gu ++ ge, 0 < g.2 := fun g hg => po g (by
      rcases List.mem_append.1 hg with h | h <;> simp [h])
    rw [hv3, hu3, wcs_seen hz sv pv, wcs_seen hz su pu, r3, r4, tv]
    refine ⟨rfl, rfl, rfl, by rw [List.length_append], ?_, trivial⟩
    by_cases hg : gs = []
    · subst hg
      rw [if_neg, if_pos rfl]
      rw [hs]
      simp [textOf]
    · rw [if_neg hg, if_pos]
      have h1 : textOf gs ≠ [] := by
        cases gs with
        | nil => exact absurd rfl hg
        | cons g gs =>
          have := seen_ne hse.2 g (by simp)
          simp [textOf, this]
      have := List.length_pos_iff.2 h1
      rw [hs]
      simp only [List.length_append]
      omega
  · intro h
    refine ⟨(he2 h).1, fun h2 => ?_⟩
    rcases (he2 h).2 h2 with h3 | h3
    · rw [← ee] at h3
      left
      simp at h3
      exact h3.2
    · rw [← ee] at h3
      cases h4 : textOf ge with
      | nil => rw [h4] at h3; right; simpa using h3
      | cons x xs =>
        rw [h4] at h3
        simp at h3
        left; exact h3.2.2

/-! ### Cells -/

def cellsOf (gs : List (Text × Int)) : List Cell := gs.flatMap fun g => cells g.1 g.2.toNat

theorem cells_length (t : Text) (n : Nat) : (cells t n).length = n := by unfold cells; split <;> simp

theorem cellsOf_append (a b : List (Text × Int)) : cellsOf (a ++ b) = cellsOf a ++ cellsOf b := by simp [cellsOf]

theorem cellsOf_length (gs : List (Text × Int)) : (cellsOf gs).length = cols gs := by
  simp only [cellsOf, cols, List.length_flatMap, cells_length]

theorem whole_append {a b : List Cell} (ha : Whole a) (hb : Whole b) : Whole (a ++ b) := by
  induction ha with
  | nil => exact hb
  | blank _ ih => exact .blank ih
  | glyph t n _ ih => rw [List.append_assoc]; exact .glyph t n ih

theorem whole_blanks : ∀ n, Whole (List.replicate n .blank)
  | 0 => .nil
  | n + 1 => .blank (whole_blanks n)

theorem whole_cells (t : Text) (n : Nat) : Whole (cells t n) := by
  unfold cells
  split
  · exact whole_blanks n
  · have := Whole.glyph t n .nil
    simpa using this

theorem whole_cellsOf : ∀ gs : List (Text × Int), Whole (cellsOf gs)
  | [] => .nil
  | g :: gs => by
    have : cellsOf (g :: gs) = cells g.1 g.2.toNat ++ cellsOf gs := by simp [cellsOf]
    rw [this]
    exact whole_append (whole_cells _ _) (whole_cellsOf gs)

theorem mends_refl (l : List Cell) : Mends l l := ⟨rfl, fun a b c h _ => ⟨a, c, h, rfl⟩⟩

theorem mends_whole {l l' : List Cell} (h : Mends l l') (hw : Whole l) : l' = l := by
  obtain ⟨a, c, h1, h2⟩ := h.2 [] l [] (by simp) hw
  have h3 := h.1
  have h4 : a = [] := List.length_eq_zero_iff.1 h2
  subst h4
  have h5 : c = [] := by
    have := congrArg List.length h1
    simp at this
    exact List.length_eq_zero_iff.1 (by omega)
  rw [h1, h5]; simp

/-- A part at the end that is not cut. -/
theorem mends_end {a b l : List Cell} (h : Mends (a ++ b) l) (hw : Whole b) : ∃ a', l = a' ++ b ∧ a'.length = a.length := by
  obtain ⟨a', c, h1, h2⟩ := h.2 a b [] (by simp) hw
  have h3 := h.1
  have : c = [] := by
    have := congrArg List.length h1
    simp at this h3
    exact List.length_eq_zero_iff.1 (by omega)
  exact ⟨a', by rw [h1, this]; simp, h2⟩

/-! ### What the terminal does -/

/-- The operations are possible, and then the cells are as stated and the cursor is where it is believed to be. -/
def Does (env : Env) (s0 : Screen) (o : Out) (Q : List Cell → Prop) : Prop :=
  (∃ s', Steps env o.ops s0 s') ∧ ∀ s', Steps env o.ops s0 s' → Q s'.cells ∧ s'.col = o.col

theorem steps_append {a b : List Op} {s s'' : Screen} : Steps env (a ++ b) s s'' ↔ ∃ s', Steps env a s s' ∧ Steps env b s' s'' := by
  constructor
  · intro h
    induction a generalizing s with
    | nil => exact ⟨s, .nil, h⟩
    | cons op a ih =>
      cases h with
      | cons h1 h2 =>
        obtain ⟨s', h3, h4⟩ := ih h2
        exact ⟨s', .cons h1 h3, h4⟩
  · rintro ⟨s', h1, h2⟩
    induction h1 with
    | nil => exact h2
    | cons h3 _ ih => exact .cons h3 (ih h2)

theorem steps_one {op : Op} {s s' : Screen} : Steps env [op] s s' ↔ Step env op s s' := by
  constructor
  · intro h
    cases h with
    | cons h1 h2 => cases h2; exact h1
  · exact fun h => .cons h .nil

theorem does_start {l : List Cell} {c : Nat} {Q : List Cell → Prop} (h : Q l) : Does env ⟨l, c⟩ ⟨[], c⟩ Q :=
  ⟨⟨_, .nil⟩, fun s' hs => by cases hs; exact ⟨h, rfl⟩⟩

/-- One more operation. -/
theorem does_op {s0 : Screen} {o : Out} {Q Q' : List Cell → Prop} {op : Op} {c : Nat} (h : Does env s0 o Q)
    (hs : ∀ l, Q l → (∃ s', Step env op ⟨l, o.col⟩ s') ∧ ∀ s', Step env op ⟨l, o.col⟩ s' → Q' s'.cells ∧ s'.col = c) :
    Does env s0 ⟨o.ops ++ [op], c⟩ Q' := by
  obtain ⟨⟨s1, h1⟩, h2⟩ := h
  refine ⟨?_, ?_⟩
  · obtain ⟨q, hc⟩ := h2 s1 h1
    obtain ⟨⟨s2, h3⟩, -⟩ := hs s1.cells q
    rw [← hc] at h3
    exact ⟨s2, steps_append.2 ⟨s1, h1, steps_one.2 h3⟩⟩
  · intro s' hst
    obtain ⟨s1, h1, h3⟩ := steps_append.1 hst
    obtain ⟨q, hc⟩ := h2 s1 h1
    refine (hs s1.cells q).2 s' ?_
    rw [← hc]
    exact steps_one.1 h3

theorem does_weaken {s0 : Screen} {o : Out} {Q Q' : List Cell → Prop} (h : Does env s0 o Q) (hq : ∀ l, Q l → Q' l) : Does env s0 o Q' :=
  ⟨h.1, fun s' hs => ⟨hq _ (h.2 s' hs).1, (h.2 s' hs).2⟩⟩

theorem does_move {s0 : Screen} {o : Out} {Q : List Cell → Prop} {c : Nat} (h : Does env s0 o Q) (hc : ∀ l, Q l → c < l.length) :
    Does env s0 (o.moveTo c) Q := by
  unfold Out.moveTo
  split
  · exact h
  · refine does_op h fun l hl => ⟨⟨_, .col (hc l hl)⟩, fun s' hs => ?_⟩
    cases hs
    exact ⟨hl, rfl⟩

theorem does_insert {s0 : Screen} {o : Out} {Q Q' : List Cell → Prop} {n : Nat} (h : Does env s0 o Q)
    (hq : ∀ l, Q l → ∃ a b c, l = a ++ b ++ c ∧ a.length = o.col ∧ c.length = n ∧ ∀ a' b', Mends a a' → Mends b b' → Q' (a' ++ List.replicate n .blank ++ b')) :
    Does env s0 ⟨o.ops ++ [.insert n], o.col⟩ Q' := by
  refine does_op h fun l hl => ?_
  obtain ⟨a, b, c, h1, h2, h3, h4⟩ := hq l hl
  subst h1
  refine ⟨⟨_, by rw [← h2]; exact .insert (mends_refl _) (mends_refl _) h3⟩, ?_⟩
  intro s' hs
  generalize hx : (⟨a ++ b ++ c, o.col⟩ : Screen) = sx at hs
  cases hs with
  | @insert a2 b2 c2 a' b' _ m1 m2 m3 =>
    simp only [Screen.mk.injEq] at hx
    obtain ⟨x1, x2⟩ := hx
    rw [List.append_assoc, List.append_assoc] at x1
    obtain ⟨y1, y2⟩ := List.append_inj x1 (by omega)
    obtain ⟨y3, y4⟩ := List.append_inj y2 (by have := congrArg List.length y2; simp at this; omega)
    subst y1 y3
    exact ⟨h4 _ _ m1 m2, x2.symm⟩

theorem does_delete {s0 : Screen} {o : Out} {Q Q' : List Cell → Prop} {n : Nat} (h : Does env s0 o Q)
    (hq : ∀ l, Q l → ∃ a b c, l = a ++ b ++ c ∧ a.length = o.col ∧ b.length = n ∧ ∀ a' c', Mends a a' → Mends c c' → Q' (a' ++ c' ++ List.replicate n .blank)) :
    Does env s0 ⟨o.ops ++ [.delete n], o.col⟩ Q' := by
  refine does_op h fun l hl => ?_
  obtain ⟨a, b, c, h1, h2, h3, h4⟩ := hq l hl
  subst h1
  refine ⟨⟨_, by rw [← h2]; exact .delete (mends_refl _) (mends_refl _) h3⟩, ?_⟩
  intro s' hs
  generalize hx : (⟨a ++ b ++ c, o.col⟩ : Screen) = sx at hs
  cases hs with
  | @delete a2 b2 c2 a' b' _ m1 m2 m3 =>
    simp only [Screen.mk.injEq] at hx
    obtain ⟨x1, x2⟩ := hx
    rw [List.append_assoc, List.append_assoc] at x1
    obtain ⟨y1, y2⟩ := List.append_inj x1 (by omega)
    obtain ⟨y3, y4⟩ := List.append_inj y2 (by omega)
    subst y1 y4
    exact ⟨h4 _ _ m1 m2, x2.symm⟩

theorem does_put {s0 : Screen} {o : Out} {Q Q' : List Cell → Prop} {t : Text} {l0 : List Cell} {k : Nat} (h : Does env s0 o Q) (hd : Drawn env t l0)
    (hu : ∀ l', Drawn env t l' → l' = l0) (hk : k = o.col + l0.length)
    (hq : ∀ l, Q l → ∃ a b c, l = a ++ b ++ c ∧ a.length = o.col ∧ b.length = l0.length ∧ ∀ a' c', Mends a a' → Mends c c' → Q' (a' ++ l0 ++ c')) :
    Does env s0 ⟨o.ops ++ [.put t], k⟩ Q' := by
  refine does_op h fun l hl => ?_
  obtain ⟨a, b, c, h1, h2, h3, h4⟩ := hq l hl
  subst h1
  refine ⟨⟨_, by rw [← h2]; exact .put hd (mends_refl _) (mends_refl _) h3⟩, ?_⟩
  intro s' hs
  generalize hx : (⟨a ++ b ++ c, o.col⟩ : Screen) = sx at hs
  cases hs with
  | @put a2 b2 c2 a' c' _ l' hd' m1 m2 m3 =>
    simp only [Screen.mk.injEq] at hx
    obtain ⟨x1, x2⟩ := hx
    have := hu l' hd'
    subst this
    rw [List.append_assoc, List.append_assoc] at x1
    obtain ⟨y1, y2⟩ := List.append_inj x1 (by omega)
    obtain ⟨y3, y4⟩ := List.append_inj y2 (by omega)
    subst y1 y4
    exact ⟨h4 _ _ m1 m2, by dsimp only; omega⟩

theorem does_spaces {s0 : Screen} {o : Out} {Q Q' : List Cell → Prop} {n k : Nat} (h : Does env s0 o Q) (hk : k = o.col + n)
    (hq : ∀ l, Q l → ∃ a b c, l = a ++ b ++ c ∧ a.length = o.col ∧ b.length = n ∧ ∀ a' c', Mends a a' → Mends c c' → Q' (a' ++ List.replicate n .blank ++ c')) :
    Does env s0 ⟨o.ops ++ [.spaces n], k⟩ Q' := by
  refine does_op h fun l hl => ?_
  obtain ⟨a, b, c, h1, h2, h3, h4⟩ := hq l hl
  subst h1
  refine ⟨⟨_, by rw [← h2]; exact .spaces (mends_refl _) (mends_refl _) h3⟩, ?_⟩
  intro s' hs
  generalize hx : (⟨a ++ b ++ c, o.col⟩ : Screen) = sx at hs
  cases hs with
  | @spaces a2 b2 c2 a' c' _ m1 m2 m3 =>
    simp only [Screen.mk.injEq] at hx
    obtain ⟨x1, x2⟩ := hx
    rw [List.append_assoc, List.append_assoc] at x1
    obtain ⟨y1, y2⟩ := List.append_inj x1 (by omega)
    obtain ⟨y3, y4⟩ := List.append_inj y2 (by omega)
    subst y1 y4
    exact ⟨h4 _ _ m1 m2, by dsimp only; omega⟩

theorem does_clear {s0 : Screen} {o : Out} {Q Q' : List Cell → Prop} {n : Nat} (h : Does env s0 o Q)
    (hq : ∀ l, Q l → ∃ a b, l = a ++ b ∧ a.length = o.col ∧ b.length = n ∧ ∀ a', Mends a a' → Q' (a' ++ List.replicate n .blank)) :
    Does env s0 (o.clear n) Q' := by
  unfold Out.clear
  split
  · rename_i hn
    refine does_weaken h fun l hl => ?_
    obtain ⟨a, b, h1, h2, h3, h4⟩ := hq l hl
    have : b = [] := List.length_eq_zero_iff.1 (by omega)
    have h5 := h4 a (mends_refl a)
    rw [h1, this]
    rw [hn] at h5
    exact h5
  · refine does_op h fun l hl => ?_
    obtain ⟨a, b, h1, h2, h3, h4⟩ := hq l hl
    subst h1
    have hb : b ≠ [] := by intro hb; rw [hb] at h3; simp at h3; omega
    refine ⟨⟨_, by rw [← h2]; exact .clear (mends_refl _) hb⟩, ?_⟩
    intro s' hs
    generalize hx : (⟨a ++ b, o.col⟩ : Screen) = sx at hs
    cases hs with
    | @clear a2 b2 a' m1 m2 =>
      simp only [Screen.mk.injEq] at hx
      obtain ⟨x1, x2⟩ := hx
      obtain ⟨y1, y2⟩ := List.append_inj x1 (by omega)
      subst y1 y2
      rw [h3]
      exact ⟨h4 _ m1, x2.symm⟩

/-! ### Blank cells -/

def AllBlank (l : List Cell) : Prop := ∀ x ∈ l, x = .blank

theorem allBlank_eq {l : List Cell} (h : AllBlank l) : l = List.replicate l.length .blank := List.eq_replicate_iff.2 ⟨rfl, h⟩

theorem allBlank_rep (n : Nat) : AllBlank (List.replicate n .blank) := fun _ hx => (List.mem_replicate.1 hx).2

theorem allBlank_append {a b : List Cell} (ha : AllBlank a) (hb : AllBlank b) : AllBlank (a ++ b) := fun x hx =>
  (List.mem_append.1 hx).elim (ha x) (hb x)

theorem allBlank_drop {l : List Cell} (h : AllBlank l) (n : Nat) : AllBlank (l.drop n) := fun x hx => h x (List.mem_of_mem_drop hx)

theorem allBlank_whole {l : List Cell} (h : AllBlank l) : Whole l := by rw [allBlank_eq h]; exact whole_blanks _

theorem allBlank_more {l : List Cell} {m n : Nat} (h : AllBlank (l.drop m)) (hn : m ≤ n) : AllBlank (l.drop n) := by
  have := allBlank_drop h (n - m)
  rw [List.drop_drop, Nat.add_sub_cancel' hn] at this
  exact this

theorem allBlank_right {a b : List Cell} {m : Nat} (h : AllBlank ((a ++ b).drop m)) : AllBlank (b.drop (m - a.length)) := by
  have := allBlank_more h (n := a.length + (m - a.length)) (by omega)
  rwa [List.drop_append, List.drop_eq_nil_of_le (by omega), List.nil_append, Nat.add_sub_cancel_left] at this

theorem mends_blank {c c' : List Cell} {k : Nat} (h : Mends c c') (hb : AllBlank (c.drop k)) : AllBlank (c'.drop k) := by
  by_cases hk : k ≤ c.length
  · rw [← List.take_append_drop k c] at h
    obtain ⟨a, h1, h2⟩ := mends_end h (allBlank_whole hb)
    rw [h1, List.drop_left' (by rw [h2]; simp [hk])]
    exact hb
  · rw [List.drop_eq_nil_of_le (by rw [h.1]; omega)]
    intro x hx; simp at hx

/-! ### Spaces -/

theorem seen_spaces (ha : Ascii env) : ∀ n, Seen env (List.replicate n (32, 48)) (List.replicate n ([(32, 48)], 1))
  | 0 => ⟨[], [], rfl, by simp, .nil, rfl⟩
  | n + 1 => by
    have h1 : Seen env [(32, 48)] [([(32, 48)], 1)] := by
      obtain ⟨hp, hw⟩ := ha 32 (by omega) (by omega)
      refine ⟨[32], [([32], 1)], rfl, by simp [IsText], ?_, rfl⟩
      rw [← hw]
      have := Ellipsify.glyphs_plain (env := env) [32] (by simpa using hp)
      simpa [Ellipsify.singles] using this
    have := seen_append ha h1 (seen_spaces ha n) (by
      intro p hp
      have := List.mem_of_head? hp
      rw [(List.mem_replicate.1 this).2]; omega)
    simpa [List.replicate_succ] using this

theorem cells_spaces (n : Nat) : cellsOf (List.replicate n ([(32, 48)], 1)) = List.replicate n .blank := by
  induction n with
  | zero => rfl
  | succ n ih =>
    rw [List.replicate_succ, List.replicate_succ, ← ih]
    simp [cellsOf, cells]

/-- The spaces at the end of a row. -/
theorem cells_trail (hz : env.variant 0 = false) (ha : Ascii env) {t : Text} {n : Nat} {gs : List (Text × Int)} (h : Seen env (t ++ List.replicate n (32, 48)) gs) :
    ∃ l, cellsOf gs = l ++ List.replicate n .blank ∧ Whole l := by
  obtain ⟨g1, g2, h1, h2, h3⟩ := seen_divide hz ha h (by
    intro p hp
    have := List.mem_of_head? hp
    rw [(List.mem_replicate.1 this).2]; omega)
  rw [seen_unique hz h3 (seen_spaces ha n)] at h1
  exact ⟨cellsOf g1, by rw [h1, cellsOf_append, cells_spaces], whole_cellsOf g1⟩

/-! ### Drawing -/

variable {s0 : Screen} {W : Nat} {p : List Cell} {d : Row} {gd : List (Text × Int)}

/-- What is shown when the text has been written; nothing is behind column `e`. -/
def Written (W : Nat) (p l0 : List Cell) (e : Nat) (l : List Cell) : Prop :=
  l.length = W ∧ ∃ tail, l = p ++ l0 ++ tail ∧ AllBlank (tail.drop (e - (p.length + l0.length)))

/-- Writing the part that differs. -/
theorem does_text {o : Out} {e : Nat} {g0 gv gs : List (Text × Int)} (hz : env.variant 0 = false) (hs : Seen env (textOf gv) gv) (hp : ∀ g ∈ gv, 0 < g.2) (hw : Whole p)
    (hc : o.col = p.length + cols g0) (hr : p.length + cols g0 + cols gv ≤ W)
    (h : Does env s0 o fun l => l.length = W ∧ ∃ r, l = p ++ cellsOf g0 ++ r ∧
      ((∃ x n, x.length = cols gv ∧ r = x ++ cellsOf gs ++ List.replicate n .blank) ∨ gs = [] ∧ AllBlank (r.drop (e - (p.length + cols g0))))) :
    Does env s0 ⟨o.ops ++ [.put (textOf gv)], o.col + cols gv⟩ (Written W p (cellsOf (g0 ++ gv ++ gs)) e) := by
  refine does_put h ⟨gv, hs, hp, rfl⟩ ?_ (by rw [← cellsOf_length]; rfl) ?_
  · rintro l' ⟨g', h1, -, rfl⟩
    rw [seen_unique hz h1 hs]
  · rintro l ⟨hl, r, h1, h2⟩
    have hl' := hl
    rw [h1, List.length_append, List.length_append, cellsOf_length] at hl'
    have hwa : Whole (p ++ cellsOf g0) := whole_append hw (whole_cellsOf g0)
    rcases h2 with ⟨x, n, hx, h2⟩ | ⟨rfl, h2⟩
    · refine ⟨p ++ cellsOf g0, x, cellsOf gs ++ List.replicate n .blank, ?_, ?_, ?_, ?_⟩
      · rw [h1, h2]; simp
      · rw [List.length_append, cellsOf_length, hc]
      · rw [hx]; exact (cellsOf_length gv).symm
      · intro a' c' m1 m2
        rw [mends_whole m1 hwa, mends_whole m2 (whole_append (whole_cellsOf gs) (whole_blanks n))]
        refine ⟨?_, List.replicate n .blank, ?_, allBlank_drop (allBlank_rep n) _⟩
        · rw [← hl, h1, h2]
          show (p ++ cellsOf g0 ++ cellsOf gv ++ (cellsOf gs ++ List.replicate n Cell.blank)).length = _
          simp [hx, cellsOf_length]
        · show p ++ cellsOf g0 ++ cellsOf gv ++ (cellsOf gs ++ List.replicate n Cell.blank) = _
          simp [cellsOf_append]
    · refine ⟨p ++ cellsOf g0, r.take (cols gv), r.drop (cols gv), ?_, ?_, ?_, ?_⟩
      · rw [h1]; simp
      · rw [List.length_append, cellsOf_length, hc]
      · show _ = (cellsOf gv).length
        rw [cellsOf_length, List.length_take]; omega
      · intro a' c' m1 m2
        rw [mends_whole m1 hwa]
        have m3 := m2.1
        rw [List.length_drop] at m3
        refine ⟨?_, c', ?_, ?_⟩
        · show (p ++ cellsOf g0 ++ cellsOf gv ++ c').length = _
          simp [cellsOf_length]; omega
        · show p ++ cellsOf g0 ++ cellsOf gv ++ c' = _
          simp [cellsOf_append]
        · refine mends_blank m2 ?_
          rw [List.drop_drop]
          refine allBlank_more h2 ?_
          rw [cellsOf_length]
          simp only [cols_append]
          have : cols [] = 0 := rfl
          omega

/-- Clearing what is left. -/
theorem does_rest {o : Out} {e : Nat} {l0 l1 : List Cell} {k j : Nat} {eol : Bool} (hw : Whole p) (hp : p.length = d.x) (h1 : l0 = l1 ++ List.replicate d.trail .blank) (hw1 : Whole l1)
    (hx : d.lastcol = p.length + l1.length) (hr : d.lastcol + d.trail ≤ W) (he : e ≤ W)
    (hk : o.col + k = p.length + l0.length) (hj : eol = true → d.lastcol < e → ∃ l2, l0 = l2 ++ List.replicate k .blank ∧ Whole l2) (hj2 : j = W - o.col)
    (hdr : ∃ gs, Seen env d.text gs ∧ (∀ g ∈ gs, 0 < g.2) ∧ l0 = cellsOf gs)
    (h : Does env s0 o (Written W p l0 e)) :
    Does env s0
      (if d.lastcol < e then
        if eol then o.clear j
        else ⟨(o.moveTo d.lastcol).ops ++ [.spaces (e - d.lastcol)], (o.moveTo d.lastcol).col + (e - d.lastcol)⟩
      else o) (Shows env W p d) := by
  have hlen : l0.length = l1.length + d.trail := by rw [h1]; simp
  obtain ⟨gs, sg, pg, hg⟩ := hdr
  have hdrawn : Drawn env d.text l0 := ⟨gs, sg, pg, hg⟩
  split
  · rename_i hlt
    split
    · rename_i heol
      obtain ⟨l2, h2, hw2⟩ := hj heol hlt
      have hlen2 : l0.length = l2.length + k := by rw [h2]; simp
      refine does_clear h ?_
      rintro l ⟨hl, tail, ht, hb⟩
      have hl' := hl
      rw [ht, List.length_append, List.length_append] at hl'
      refine ⟨p ++ l2, List.replicate k .blank ++ tail, ?_, ?_, ?_, ?_⟩
      · rw [ht, h2]; simp
      · rw [List.length_append]; omega
      · simp; omega
      · intro a' m
        rw [mends_whole m (whole_append hw hw2)]
        refine ⟨hp, ?_, l0, j - k, hdrawn, ?_⟩
        · simp; omega
        · rw [h2]
          simp only [List.append_assoc, List.replicate_append_replicate]
          rw [show k + (j - k) = j by omega]
    · have hcol : (o.moveTo d.lastcol).col = d.lastcol := by unfold Out.moveTo; split <;> simp_all
      refine does_spaces (does_move h ?_) (by rw [hcol]) ?_
      · rintro l ⟨hl, -⟩
        omega
      · rintro l ⟨hl, tail, ht, hb⟩
        have hl' := hl
        rw [ht, List.length_append, List.length_append] at hl'
        refine ⟨p ++ l1, (List.replicate d.trail Cell.blank ++ tail).take (e - d.lastcol), (List.replicate d.trail Cell.blank ++ tail).drop (e - d.lastcol), ?_, ?_, ?_, ?_⟩
        · rw [ht, h1]; simp
        · rw [hcol, hx, List.length_append]
        · simp; omega
        · intro a' c' m1 m2
          have hab : AllBlank ((List.replicate d.trail Cell.blank ++ tail).drop (e - d.lastcol)) := by
            rw [List.drop_append]
            refine allBlank_append (allBlank_drop (allBlank_rep _) _) ?_
            rw [List.length_replicate, show e - d.lastcol - d.trail = e - (p.length + l0.length) by omega]
            exact hb
          rw [mends_whole m1 (whole_append hw hw1), mends_whole m2 (allBlank_whole hab), allBlank_eq hab]
          refine ⟨hp, ?_, l0, W - (d.lastcol + d.trail), hdrawn, ?_⟩
          · simp; omega
          · rw [h1]
            simp only [List.append_assoc, List.replicate_append_replicate, List.length_drop, List.length_append, List.length_replicate]
            rw [show e - d.lastcol + (d.trail + tail.length - (e - d.lastcol)) = d.trail + (W - (d.lastcol + d.trail)) by omega]
  · rename_i hge
    refine does_weaken h ?_
    rintro l ⟨hl, tail, ht, hb⟩
    refine ⟨hp, hl, l0, tail.length, hdrawn, ?_⟩
    rw [show e - (p.length + l0.length) = 0 by omega, List.drop_zero] at hb
    rw [ht]
    congr 1
    exact allBlank_eq hb

theorem out_shift_zero (o : Out) : o.shift 0 = o := by simp [Out.shift]

theorem moveTo_col (o : Out) (c : Nat) : (o.moveTo c).col = c := by unfold Out.moveTo; split <;> simp_all

theorem shift_col (o : Out) (n : Int) : (o.shift n).col = o.col := by
  unfold Out.shift; split
  · rfl
  · split <;> rfl

/-- The row is drawn whole. -/
theorem does_full (hz : env.variant 0 = false) (ha : Ascii env) (hd : Fits env W d) (hx : d.x < W) {l : List Cell} {col e : Nat} {eol : Bool}
    (hp : p.length = d.x) (hw : Whole p) (hl : l.length = W) {r : List Cell} (hr : l = p ++ r) (hb : AllBlank (r.drop (e - d.x))) (he : e ≤ W) :
    Does env ⟨l, col⟩
      (if d.lastcol < e then
        if eol then (⟨((⟨[], col⟩ : Out).moveTo d.x).ops ++ [.put d.text], d.lastcol + d.trail⟩ : Out).clear (W - (d.lastcol + d.trail))
        else ⟨((⟨((⟨[], col⟩ : Out).moveTo d.x).ops ++ [.put d.text], d.lastcol + d.trail⟩ : Out).moveTo d.lastcol).ops ++ [.spaces (e - d.lastcol)],
          ((⟨((⟨[], col⟩ : Out).moveTo d.x).ops ++ [.put d.text], d.lastcol + d.trail⟩ : Out).moveTo d.lastcol).col + (e - d.lastcol)⟩
      else ⟨((⟨[], col⟩ : Out).moveTo d.x).ops ++ [.put d.text], d.lastcol + d.trail⟩) (Shows env W p d) := by
  obtain ⟨l0, ⟨gd, h1, h2, h3⟩, h4⟩ := hd.drawn
  obtain ⟨t, ht⟩ := hd.trail
  have hroom := hd.room
  have h3 : l0 = cellsOf gd := h3
  obtain ⟨l1, h5, h6⟩ := cells_trail (n := d.trail) (t := t) hz ha (by rw [← ht]; exact h1)
  have hlen : cols gd = l1.length + d.trail := by rw [← cellsOf_length, h5]; simp
  rw [h3, cellsOf_length] at h4
  have hte := seen_text h1
  have hput := does_text (s0 := ⟨l, col⟩) (o := (⟨[], col⟩ : Out).moveTo d.x) (e := e) (g0 := []) (gv := gd) (gs := []) (W := W) hz (by rw [hte]; exact h1) h2 hw
    (by rw [moveTo_col, hp]; simp [cols]) (by rw [hp]; simp only [cols, List.map_nil, List.sum_nil] at h4 ⊢; omega)
    (does_move (does_start (Q := fun x => x.length = W ∧ ∃ r, x = p ++ cellsOf [] ++ r ∧
      ((∃ x n, x.length = cols gd ∧ r = x ++ cellsOf [] ++ List.replicate n .blank) ∨ ([] : List (Text × Int)) = [] ∧ AllBlank (r.drop (e - (p.length + cols [])))))
      ⟨hl, r, by simpa [cellsOf] using hr, .inr ⟨rfl, by rw [hp]; exact hb⟩⟩) (fun x hx' => by have := hx'.1; omega))
  rw [hte, moveTo_col, h4] at hput
  simp only [List.nil_append, List.append_nil] at hput
  refine does_rest (l0 := cellsOf gd) (l1 := l1) (k := 0) hw hp h5 h6 ?_ hroom he ?_ ?_ rfl ⟨gd, h1, h2, rfl⟩ hput
  · omega
  · rw [cellsOf_length, hp]; dsimp only; omega
  · intro _ _; exact ⟨cellsOf gd, by simp, whole_cellsOf gd⟩

/-- The old row is moved to the left. -/
theorem does_left {o : Row} {l q : List Cell} {col n : Nat} {go : List (Text × Int)} (hp : p.length = d.x) (hw : Whole p) (hx : d.x < W) (hle : d.x ≤ o.x)
    (hl : l.length = W) (hr : l = p ++ q ++ cellsOf go ++ List.replicate n .blank) (hq : p.length + q.length = o.x) :
    Does env ⟨l, col⟩ (if d.x < o.x then ((⟨[], col⟩ : Out).moveTo d.x).shift ((d.x : Int) - o.x) else ⟨[], col⟩)
      fun l => l.length = W ∧ l = p ++ cellsOf go ++ List.replicate (n + (o.x - d.x)) .blank := by
  split
  · rename_i hlt
    have hsh : ((⟨[], col⟩ : Out).moveTo d.x).shift ((d.x : Int) - o.x) =
        ⟨((⟨[], col⟩ : Out).moveTo d.x).ops ++ [.delete (o.x - d.x)], ((⟨[], col⟩ : Out).moveTo d.x).col⟩ := by
      unfold Out.shift
      rw [if_neg (by omega), if_pos (by omega), show (-((d.x : Int) - o.x)).toNat = o.x - d.x by omega]
    rw [hsh]
    refine does_delete (does_move (does_start (Q := fun x => x = l) rfl) ?_) ?_
    · rintro x rfl; omega
    · rintro x rfl
      refine ⟨p, q, cellsOf go ++ List.replicate n .blank, by rw [hr]; simp, by rw [moveTo_col, hp], by omega, ?_⟩
      intro a' c' m1 m2
      rw [mends_whole m1 hw, mends_whole m2 (whole_append (whole_cellsOf go) (whole_blanks n))]
      refine ⟨?_, ?_⟩
      · rw [← hl, hr]; simp; omega
      · simp only [List.append_assoc, List.replicate_append_replicate]
  · rename_i hge
    refine does_start ⟨hl, ?_⟩
    have : q = [] := List.length_eq_zero_iff.1 (by omega)
    rw [hr, this, show o.x - d.x = 0 by omega]
    simp

/-- Room for the part that differs is made. -/
theorem does_room {o : Out} {e n : Nat} {g0 gu gv gs : List (Text × Int)} (hw : Whole p) (hx : p.length + cols g0 < W) (hr : p.length + cols (g0 ++ gv ++ gs) ≤ W)
    (hb : AllBlank ((cellsOf (g0 ++ gu ++ gs) ++ List.replicate n Cell.blank).drop (e - p.length)))
    (h : Does env s0 o fun l => l.length = W ∧ l = p ++ cellsOf (g0 ++ gu ++ gs) ++ List.replicate n .blank) :
    Does env s0 ((o.moveTo (p.length + cols g0)).shift (if gs = [] then 0 else (cols gv : Int) - cols gu)) fun l => l.length = W ∧ ∃ r, l = p ++ cellsOf g0 ++ r ∧
      ((∃ x n, x.length = cols gv ∧ r = x ++ cellsOf gs ++ List.replicate n .blank) ∨ gs = [] ∧ AllBlank (r.drop (e - (p.length + cols g0)))) := by
  have hm := does_move (c := p.length + cols g0) h (by rintro l ⟨hl, -⟩; omega)
  have hwa : Whole (p ++ cellsOf g0) := whole_append hw (whole_cellsOf g0)
  simp only [cols_append] at hr
  by_cases hg : gs = []
  · rw [if_pos hg, out_shift_zero]
    refine does_weaken hm ?_
    rintro l ⟨hl, h1⟩
    subst hg
    refine ⟨hl, cellsOf gu ++ List.replicate n .blank, by rw [h1]; simp [cellsOf_append], .inr ⟨rfl, ?_⟩⟩
    have h2 : cellsOf (g0 ++ gu ++ []) ++ List.replicate n .blank = cellsOf g0 ++ (cellsOf gu ++ List.replicate n .blank) := by simp [cellsOf_append]
    rw [h2] at hb
    have := allBlank_right hb
    rwa [cellsOf_length, Nat.sub_sub] at this
  · rw [if_neg hg]
    unfold Out.shift
    split
    · rename_i hpos
      refine does_insert hm ?_
      rintro l ⟨hl, h1⟩
      have hl' := hl
      rw [h1] at hl'
      simp only [List.length_append, cellsOf_length, cols_append, List.length_replicate] at hl'
      generalize hk : ((cols gv : Int) - cols gu).toNat = k
      refine ⟨p ++ cellsOf g0, cellsOf gu ++ cellsOf gs ++ List.replicate (n - k) .blank, List.replicate k .blank, ?_, ?_, by simp, ?_⟩
      · rw [h1]
        simp only [cellsOf_append, List.append_assoc, List.replicate_append_replicate]
        rw [show n - k + k = n by omega]
      · rw [List.length_append, cellsOf_length, moveTo_col]
      · intro a' b' m1 m2
        rw [mends_whole m1 hwa, mends_whole m2 (whole_append (whole_append (whole_cellsOf gu) (whole_cellsOf gs)) (whole_blanks _))]
        refine ⟨?_, _, List.append_assoc _ _ _, .inl ⟨List.replicate k .blank ++ cellsOf gu, n - k, ?_, by simp⟩⟩
        · simp [cellsOf_length]; omega
        · simp [cellsOf_length]; omega
    · split
      · rename_i hneg
        refine does_delete hm ?_
        rintro l ⟨hl, h1⟩
        have hl' := hl
        rw [h1] at hl'
        simp only [List.length_append, cellsOf_length, cols_append, List.length_replicate] at hl'
        generalize hk : (-((cols gv : Int) - cols gu)).toNat = k
        have hgu := cellsOf_length gu
        refine ⟨p ++ cellsOf g0, (cellsOf gu).take k, (cellsOf gu).drop k ++ (cellsOf gs ++ List.replicate n .blank), ?_, ?_, ?_, ?_⟩
        · rw [h1]
          conv => lhs; rw [cellsOf_append, cellsOf_append, ← List.take_append_drop k (cellsOf gu)]
          simp only [List.append_assoc]
        · rw [List.length_append, cellsOf_length, moveTo_col]
        · rw [List.length_take]; omega
        · intro a' c' m1 m2
          obtain ⟨x, hx1, hx2⟩ := mends_end m2 (whole_append (whole_cellsOf gs) (whole_blanks n))
          rw [mends_whole m1 hwa, hx1]
          rw [List.length_drop] at hx2
          refine ⟨?_, x ++ cellsOf gs ++ List.replicate (n + k) .blank, ?_, .inl ⟨x, n + k, by omega, rfl⟩⟩
          · simp [cellsOf_length]; omega
          · simp only [List.append_assoc, List.replicate_append_replicate]
      · refine does_weaken hm ?_
        rintro l ⟨hl, h1⟩
        refine ⟨hl, cellsOf gu ++ cellsOf gs ++ List.replicate n .blank, by rw [h1]; simp [cellsOf_append], .inl ⟨cellsOf gu, n, ?_, rfl⟩⟩
        rw [cellsOf_length]; omega

/-- Only the part that differs is drawn. -/
theorem does_diff (hz : env.variant 0 = false) (ha : Ascii env) {o : Row} (ho : Fits env W o) (hd : Fits env W d) (hx : d.x < W) {l : List Cell} {col : Nat} {toeol : Bool}
    (hf : OneFace env d.text) (heol : toeol = false ∨ d.text.head? ≠ some (32, 48) ∧ (o.lastcol ≤ d.lastcol ∨ ¬ TwoSpaces d.text))
    (hle : d.x ≤ o.x) (hne : ¬ (o.x = d.x ∧ o.text = d.text)) (hb : Before env W p (some o) d l) :
    ∃ plan, diff env false toeol o d = some plan ∧ Does env ⟨l, col⟩ (draw W (some o) d plan { col := col }) (Shows env W p d) := by
  obtain ⟨hp, hw, hl, hb⟩ := hb
  simp only [if_pos hle] at hb
  obtain ⟨q, t, n, ⟨go, so, po, ht⟩, hr, hq⟩ := hb
  have ht : t = cellsOf go := ht
  subst ht
  obtain ⟨l0, ⟨gd, sd, pd, hl0⟩, hdx⟩ := hd.drawn
  have hl0 : l0 = cellsOf gd := hl0
  subst hl0
  obtain ⟨l0', ⟨go', so', -, hl0'⟩, hox⟩ := ho.drawn
  have hl0' : l0' = cellsOf go' := hl0'
  rw [seen_unique hz so' so] at hl0'
  subst hl0'
  rw [cellsOf_length] at hox hdx
  obtain ⟨td, htd⟩ := hd.trail
  obtain ⟨to, hto⟩ := ho.trail
  obtain ⟨ld, hld, wld⟩ := cells_trail (n := d.trail) (t := td) hz ha (by rw [← htd]; exact sd)
  obtain ⟨lo, hlo, wlo⟩ := cells_trail (n := o.trail) (t := to) hz ha (by rw [← hto]; exact so)
  have hld2 : cols gd = ld.length + d.trail := by rw [← cellsOf_length, hld]; simp
  have hlo2 : cols go = lo.length + o.trail := by rw [← cellsOf_length, hlo]; simp
  have roomd := hd.room
  have roomo := ho.room
  have tgo := seen_text so
  have tgd := seen_text sd
  obtain ⟨g0, gu, gv, gs, e, e1, e2, e3, e4, e5, e6⟩ := diff_go hz ha so sd po pd hf (heol.imp id And.left)
  refine ⟨_, e5, ?_⟩
  have pv : ∀ g ∈ gv, 0 < g.2 := fun g hg => pd g (by rw [e2]; simp [hg])
  have hcd : cols gd = cols g0 + cols gv + cols gs := by rw [e2, cols_append, cols_append]
  have hco : cols go = cols g0 + cols gu + cols gs := by rw [e1, cols_append, cols_append]
  have pos : ∀ gs : List (Text × Int), (∀ g ∈ gs, 0 < g.2) → cols gs = 0 → gs = [] := by
    intro gs hg h0
    cases gs with
    | nil => rfl
    | cons g gs =>
      have := hg g (by simp)
      simp [cols] at h0
      omega
  have hlen : p.length + q.length + cols go + n = W := by
    rw [← hl, hr]; simp [cellsOf_length]; omega
  have hcol : p.length + cols g0 < W := by
    by_cases hlt : p.length + cols g0 < W
    · exact hlt
    · exfalso
      have h1 : gv = [] := pos gv pv (by omega)
      have h2 : gs = [] := pos gs (fun g hg => pd g (by rw [e2]; simp [hg])) (by omega)
      have h3 : gu = [] := pos gu (fun g hg => po g (by rw [e1]; simp [hg])) (by omega)
      refine hne ⟨by omega, ?_⟩
      rw [← tgo, ← tgd, e1, e2, h1, h3]
  have hbl : AllBlank ((cellsOf (g0 ++ gu ++ gs) ++ List.replicate (n + (o.x - d.x)) Cell.blank).drop (o.lastcol - p.length)) := by
    rw [← e1, hlo, List.append_assoc, List.drop_append, List.drop_eq_nil_of_le (by omega), List.nil_append]
    exact allBlank_drop (allBlank_append (allBlank_rep _) (allBlank_rep _)) _
  have hA := does_left (env := env) (o := o) (col := col) hp hw hx hle hl hr hq
  rw [e1] at hA
  have hB := does_room (gv := gv) hw hcol (by rw [← e2, hp]; omega) hbl hA
  have hC := does_text hz e3 pv hw (by rw [shift_col, moveTo_col]) (by omega) hB
  rw [shift_col, moveTo_col] at hC
  have hD := does_rest (eol := e) (l1 := ld) (k := cols gs) (j := W - (p.length + cols g0 + cols gv)) hw hp (by rw [← e2]; exact hld) wld (by omega) roomd (by omega)
    (by rw [← e2, cellsOf_length]; dsimp only; omega) (W := W) (e := o.lastcol) ?_ rfl ⟨gd, sd, pd, by rw [e2]⟩ hC
  · unfold draw
    dsimp only
    have htake : (d.text.drop (textOf g0).length).take ((textOf g0).length + (textOf gv).length - (textOf g0).length) = textOf gv := by
      rw [Nat.add_sub_cancel_left, ← tgd, e2, textOf_append, textOf_append, List.append_assoc, List.drop_left, List.take_left]
    rw [htake]
    rw [hp] at hD
    exact hD
  · intro het hlt
    obtain ⟨h1, h2⟩ := e6 het
    rcases heol with h3 | ⟨-, h3 | h3⟩
    · rw [h3] at h1; simp at h1
    · omega
    · refine ⟨cellsOf (g0 ++ gv), ?_, whole_cellsOf _⟩
      rw [cellsOf_append (g0 ++ gv)]
      congr 1
      rcases h2 h3 with h4 | h4
      · cases gs with
        | nil => rfl
        | cons g gs =>
          have := seen_ne e4 g (by simp)
          simp [textOf, this] at h4
      · rw [h4] at e4
        rw [seen_unique hz e4 (seen_spaces ha 1)]
        exact cells_spaces 1

end Clink.Redraw
