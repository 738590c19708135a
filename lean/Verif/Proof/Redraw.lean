import Verif.Spec.Redraw
import Verif.Proof.DisplayLine
import Verif.Proof.EllipsifyDoc
import Verif.Proof.TokensSplit

/-!
The characters of rows, and finding where two rows differ.
-/

namespace Clink.Redraw

open Doskey.Spec (flat)
open Ellipsify (Env)
open Ellipsify.Spec (Glyph Glyphs Plain Flag Starts)
open Display (Row Ch chars)
open Utf (specUtf8 IsText)
open Spec

variable {env : Env}

/-! ### The characters of a text -/

/-- The width of a character does not depend on what follows. -/
theorem glyph_width {w rest rest' : List Nat} {n n' : Int} (h : Glyph env w rest n) (h' : Glyph env w rest' n') : n = n' := by
  cases h with
  | ctrl h =>
    cases h' with
    | ctrl => rfl
    | emoji _ h2 => omega
    | plain h2 => omega
  | flags h1 h2 h3 h4 =>
    cases h' with
    | flags => rfl
    | emoji _ _ h5 => exact absurd ⟨h3, _, rfl, h4⟩ h5
    | plain _ h5 => exact absurd ⟨h3, _, rfl, h4⟩ (h5 h1 (by omega)).1
  | @emoji c w _ n h1 h2 h3 h4 h5 h6 h7 =>
    cases h' with
    | ctrl => omega
    | flags _ _ h8 h9 => exact absurd ⟨h8, _, rfl, h9⟩ h3
    | emoji _ _ _ _ _ h8 h9 =>
      by_cases hc : w ≠ [] ∨ c ∈ [0x3030, 0x303d, 0x3297, 0x3299] ∨ ¬ (env.emoji c ∨ env.unq c)
      · rw [h6 hc, h8 hc]
      · have hw : w = [] := by
          by_cases hw : w = []
          · exact hw
          · exact absurd (.inl hw) hc
        have hm : c ∉ [0x3030, 0x303d, 0x3297, 0x3299] := fun h => hc (.inr (.inl h))
        have he : env.emoji c ∨ env.unq c := by
          by_cases he : env.emoji c ∨ env.unq c
          · exact he
          · exact absurd (.inr (.inr he)) hc
        rw [h7 hw hm he, h9 hw hm he]
    | plain h8 h9 =>
      have := h9 h1 (by omega)
      rcases h4 with h | h | h
      · exact absurd h this.2.1
      · exact absurd h this.2.2.1
      · exact absurd h this.2.2.2
  | @plain c w _ n h1 h2 h3 h4 h5 h6 =>
    cases h' with
    | ctrl => omega
    | flags h7 h8 h9 h10 => exact absurd ⟨h9, _, rfl, h10⟩ (h2 h7 (by omega)).1
    | emoji h7 h8 h9 h10 =>
      have := h2 h7 (by omega)
      rcases h10 with h | h | h
      · exact absurd h this.2.1
      · exact absurd h this.2.2.1
      · exact absurd h this.2.2.2
    | plain _ _ _ _ h7 h8 =>
      by_cases hc : ∃ z ∈ w, env.wc z ≠ 0
      · rw [h5 hc, h7 hc]
      · have : ∀ z ∈ w, env.wc z = 0 := by
          intro z hz
          by_cases h0 : env.wc z = 0
          · exact h0
          · exact absurd ⟨z, hz, h0⟩ hc
        rw [h6 this, h8 this]

theorem flat_inj {a b : List Nat} (ha : ∀ c ∈ a, IsText c) (hb : ∀ c ∈ b, IsText c) (h : flat a = flat b) : a = b := by
  rw [← Ellipsify.points_flat a ha, ← Ellipsify.points_flat b hb, h]

/-- The characters of a text are determined. -/
theorem glyphs_unique (hz : env.variant 0 = false) {cs : List Nat} {gs gs' : List (List Nat × Int)} (h : Glyphs env cs gs) :
    Glyphs env cs gs' → (∀ c ∈ cs, IsText c) → gs = gs' := by
  induction h generalizing gs' with
  | nil =>
    intro h' _
    generalize hc : ([] : List Nat) = cs at h'
    cases h' with
    | nil => rfl
    | @cons w rest n gs h1 h2 =>
      have := Ellipsify.glyph_ne h1
      simp_all
  | @cons w rest n gs h1 h2 ih =>
    intro h' ht
    generalize hc : w ++ rest = cs at h' ht
    cases h' with
    | nil =>
      have := Ellipsify.glyph_ne h1
      simp_all
    | @cons w' rest' n' gs' h1' h2' =>
      have e1 := Ellipsify.oneRun_go hz h1 (by rw [hc]; exact ht)
      have e2 := Ellipsify.oneRun_go hz h1' ht
      rw [hc, e2] at e1
      simp only [Prod.mk.injEq] at e1
      have hr : rest' = rest := flat_inj (fun c h => ht c (by simp [h])) (fun c h => ht c (by rw [← hc]; simp [h])) e1.2
      subst hr
      have hw : w = w' := List.append_cancel_right hc
      subst hw
      rw [ih h2' (fun c h => ht c (by simp [h])), e1.1]

theorem split_append (a b : List (List Nat × Int)) (t u : Text) (h : t.length = (flat ((a.map (·.1)).flatten)).length) :
    split (a ++ b) (t ++ u) = split a t ++ split b u := by
  induction a generalizing t with
  | nil => 
    have : t = [] := by simpa [flat] using h
    subst this; rfl
  | cons g a ih =>
    obtain ⟨w, n⟩ := g
    simp only [List.map_cons, List.flatten_cons, Ecma48.flat_append, List.length_append] at h
    simp only [List.cons_append, split]
    rw [List.take_append_of_le_length (by omega), List.drop_append_of_le_length (by omega), ih _ (by simp; omega)]

def textOf (gs : List (Text × Int)) : Text := gs.flatMap (·.1)

theorem split_text (ws : List (List Nat × Int)) (t : Text) (h : t.length = (flat ((ws.map (·.1)).flatten)).length) : textOf (split ws t) = t := by
  induction ws generalizing t with
  | nil =>
    have : t = [] := by simpa [flat] using h
    subst this; rfl
  | cons g ws ih =>
    obtain ⟨w, n⟩ := g
    simp only [List.map_cons, List.flatten_cons, Ecma48.flat_append, List.length_append] at h
    have := ih (t.drop (flat w).length) (by simp; omega)
    simp only [split, textOf, List.flatMap_cons] at this ⊢
    rw [this, List.take_append_drop]

theorem bytes_length (t : Text) : (bytes t).length = t.length := by simp [bytes]
theorem bytes_append (t u : Text) : bytes (t ++ u) = bytes t ++ bytes u := by simp [bytes]

theorem seen_text {t : Text} {gs : List (Text × Int)} (h : Seen env t gs) : textOf gs = t := by
  obtain ⟨cs, ws, h1, h2, h3, rfl⟩ := h
  refine split_text _ _ ?_
  rw [Ellipsify.glyphs_text h3, ← h1, bytes_length]

theorem seen_unique (hz : env.variant 0 = false) {t : Text} {gs gs' : List (Text × Int)} (h : Seen env t gs) (h' : Seen env t gs') : gs = gs' := by
  obtain ⟨cs, ws, h1, h2, h3, rfl⟩ := h
  obtain ⟨cs', ws', h1', h2', h3', rfl⟩ := h'
  have : cs = cs' := flat_inj (fun c h => (h2 c h).1) (fun c h => (h2' c h).1) (h1.symm.trans h1')
  subst this
  rw [glyphs_unique hz h3 h3' fun c h => (h2 c h).1]

/-- Texts end before the first byte of an ASCII character, or at the end. -/
def Edge (t : Text) : Prop := ∀ p, t.head? = some p → p.1 < 128

theorem flat_split (cs : List Nat) : ∀ (a b : List Nat), flat cs = a ++ b → (∀ x, b.head? = some x → x < 128) → ∃ c1 c2, cs = c1 ++ c2 ∧ flat c1 = a ∧ flat c2 = b := by
  induction cs with
  | nil =>
    intro a b h _
    have : a = [] ∧ b = [] := by simpa [flat] using h.symm
    exact ⟨[], [], rfl, this.1.symm ▸ rfl, this.2.symm ▸ rfl⟩
  | cons c cs ih =>
    intro a b h hb
    rw [Ecma48.flat_cons] at h
    rcases List.append_eq_append_iff.1 h with ⟨a', h1, h2⟩ | ⟨b', h1, h2⟩
    · obtain ⟨c1, c2, h3, h4, h5⟩ := ih a' b h2 hb
      exact ⟨c :: c1, c2, by simp [h3], by rw [Ecma48.flat_cons, h4, h1], h5⟩
    · cases a with
      | nil => exact ⟨[], c :: cs, rfl, rfl, by rw [Ecma48.flat_cons, h]; rfl⟩
      | cons x a =>
        cases b' with
        | nil =>
          obtain ⟨c1, c2, h3, h4, h5⟩ := ih [] b (by simpa using h2.symm) hb
          refine ⟨c :: c1, c2, by simp [h3], ?_, h5⟩
          rw [Ecma48.flat_cons, h4, h1]; simp
        | cons y b' =>
          have hy : y < 128 := hb y (by simp [h2])
          exfalso
          by_cases hc : c < 128
          · rw [Doskey.spec_ascii hc] at h1
            simp at h1
          · have := Tokens.spec_high (c := c) (b := y) (by omega) (by rw [h1]; simp)
            omega

theorem glyphs_append {c1 c2 : List Nat} {g1 g2 : List (List Nat × Int)} (h1 : Glyphs env c1 g1) (h2 : Glyphs env c2 g2)
    (hp : ∀ c, c2.head? = some c → Plain env c) : Glyphs env (c1 ++ c2) (g1 ++ g2) := by
  induction h1 with
  | nil => simpa using h2
  | @cons w rest n gs h _ ih =>
    rw [List.append_assoc, List.cons_append]
    refine .cons (Ellipsify.glyph_swap h ?_) ih
    cases rest with
    | nil => right; simpa using hp
    | cons c rest => left; rfl

theorem glyphs_cut (g1 : List (List Nat × Int)) : ∀ {cs : List Nat} {g2 : List (List Nat × Int)}, Glyphs env cs (g1 ++ g2) →
    ∃ c1 c2, cs = c1 ++ c2 ∧ Glyphs env c1 g1 ∧ Glyphs env c2 g2 := by
  induction g1 with
  | nil => intro cs g2 h; exact ⟨[], cs, rfl, .nil, h⟩
  | cons g g1 ih =>
    intro cs g2 h
    cases h with
    | @cons w rest n _ h1 h2 =>
      obtain ⟨c1, c2, h3, h4, h5⟩ := ih h2
      refine ⟨w ++ c1, c2, by simp [h3], .cons (Ellipsify.glyph_swap h1 ?_) h4, h5⟩
      cases c1 with
      | nil => right; simp
      | cons c c1 => left; simp [h3]

theorem edge_plain (ha : Ascii env) {t : Text} {cs : List Nat} (h1 : bytes t = flat cs) (h2 : ∀ c ∈ cs, IsText c ∧ 0x20 ≤ c ∧ c ≠ 0x7f) (he : Edge t) :
    ∀ c, cs.head? = some c → Plain env c := by
  intro c hc
  cases cs with
  | nil => simp at hc
  | cons d cs =>
    obtain rfl : d = c := by simpa using hc
    cases t with
    | nil =>
      have := Display.flat_pos (w := d :: cs) (by simp)
      rw [← h1] at this
      simp [bytes] at this
    | cons p t =>
      have hp := he p rfl
      have hd : d < 128 := by
        by_cases hd : d < 128
        · exact hd
        · have hs : specUtf8 d ≠ [] := Utf.specUtf8_ne_nil d
          have := Tokens.spec_high (c := d) (b := p.1) (by omega) (by
            rw [Ecma48.flat_cons] at h1
            cases hs' : specUtf8 d with
            | nil => exact absurd hs' hs
            | cons y ys =>
              rw [hs'] at h1
              simp only [bytes, List.map_cons, List.cons_append, List.cons.injEq] at h1
              simp [h1.1])
          omega
      have := h2 d (by simp)
      exact (ha d this.2.1 (by omega)).1

theorem seen_append (ha : Ascii env) {t u : Text} {g1 g2 : List (Text × Int)} (h : Seen env t g1) (h' : Seen env u g2) (he : Edge u) :
    Seen env (t ++ u) (g1 ++ g2) := by
  obtain ⟨c1, w1, h1, h2, h3, rfl⟩ := h
  obtain ⟨c2, w2, h1', h2', h3', rfl⟩ := h'
  refine ⟨c1 ++ c2, w1 ++ w2, by rw [bytes_append, h1, h1', Ecma48.flat_append], ?_, glyphs_append h3 h3' (edge_plain ha h1' h2' he), ?_⟩
  · intro c hc
    rcases List.mem_append.1 hc with hc | hc
    · exact h2 c hc
    · exact h2' c hc
  · rw [split_append]
    rw [Ellipsify.glyphs_text h3, ← h1, bytes_length]

/-- A text can be divided before an ASCII character. -/
theorem seen_divide (hz : env.variant 0 = false) (ha : Ascii env) {t u : Text} {gs : List (Text × Int)} (h : Seen env (t ++ u) gs) (he : Edge u) :
    ∃ g1 g2, gs = g1 ++ g2 ∧ Seen env t g1 ∧ Seen env u g2 := by
  have h0 := h
  obtain ⟨cs, ws, h1, h2, h3, rfl⟩ := h
  rw [bytes_append] at h1
  obtain ⟨c1, c2, rfl, h4, h5⟩ := flat_split cs _ _ h1.symm (by
    intro x hx
    cases u with
    | nil => simp [bytes] at hx
    | cons p u =>
      have := he p rfl
      simp [bytes] at hx
      omega)
  obtain ⟨w1, hw1⟩ := Ellipsify.glyphs_exist (env := env) _ c1 (Nat.le_refl _)
  obtain ⟨w2, hw2⟩ := Ellipsify.glyphs_exist (env := env) _ c2 (Nat.le_refl _)
  have s1 : Seen env t (split w1 t) := ⟨c1, w1, h4.symm, fun c hc => h2 c (by simp [hc]), hw1, rfl⟩
  have s2 : Seen env u (split w2 u) := ⟨c2, w2, h5.symm, fun c hc => h2 c (by simp [hc]), hw2, rfl⟩
  exact ⟨_, _, seen_unique hz h0 (seen_append ha s1 s2 he), s1, s2⟩

theorem split_length (ws : List (List Nat × Int)) (t : Text) : (split ws t).length = ws.length := by
  induction ws generalizing t with
  | nil => rfl
  | cons g ws ih => obtain ⟨w, n⟩ := g; simp [split, ih]

/-- A text can be divided between two characters. -/
theorem seen_between {t : Text} {g1 g2 : List (Text × Int)} (h : Seen env t (g1 ++ g2)) : Seen env (textOf g1) g1 ∧ Seen env (textOf g2) g2 := by
  have ht := seen_text h
  obtain ⟨cs, ws, h1, h2, h3, h4⟩ := h
  have hl : ws.length = g1.length + g2.length := by rw [← split_length ws t, ← h4]; simp
  obtain ⟨w1, w2, rfl, hw⟩ : ∃ w1 w2, ws = w1 ++ w2 ∧ w1.length = g1.length := ⟨ws.take g1.length, ws.drop g1.length, by simp, by simp; omega⟩
  obtain ⟨c1, c2, rfl, h5, h6⟩ := glyphs_cut w1 h3
  have e1 : (flat c1).length ≤ t.length := by rw [← bytes_length, h1, Ecma48.flat_append]; simp
  have et : t = t.take (flat c1).length ++ t.drop (flat c1).length := by simp
  have hb : bytes (t.take (flat c1).length) = flat c1 ∧ bytes (t.drop (flat c1).length) = flat c2 := by
    have : bytes (t.take (flat c1).length) ++ bytes (t.drop (flat c1).length) = flat c1 ++ flat c2 := by
      rw [← bytes_append, ← et, h1, Ecma48.flat_append]
    exact List.append_inj this (by rw [bytes_length]; simp [e1])
  rw [et, split_append _ _ _ _ (by rw [Ellipsify.glyphs_text h5]; simp [e1])] at h4
  obtain ⟨r1, r2⟩ := List.append_inj h4 (by rw [split_length, hw])
  have s1 : Seen env (t.take (flat c1).length) g1 := ⟨c1, w1, hb.1, fun c hc => h2 c (by simp [hc]), h5, r1⟩
  have s2 : Seen env (t.drop (flat c1).length) g2 := ⟨c2, w2, hb.2, fun c hc => h2 c (by simp [hc]), h6, r2⟩
  rw [seen_text s1, seen_text s2]
  exact ⟨s1, s2⟩

/-! ### Reading the characters -/

theorem chars_len (ws : List (List Nat × Int)) (t : Text) (h : t.length = (flat ((ws.map (·.1)).flatten)).length) :
    (split ws t).map (fun g => (g.1.length, g.2)) = ws.map fun w => ((flat w.1).length, w.2) := by
  induction ws generalizing t with
  | nil => rfl
  | cons g ws ih =>
    obtain ⟨w, n⟩ := g
    simp only [List.map_cons, List.flatten_cons, Ecma48.flat_append, List.length_append] at h
    simp only [split, List.map_cons]
    rw [ih _ (by simp; omega), List.length_take, Nat.min_eq_left (by omega)]

/-- The lengths and widths of what the iterator finds. -/
theorem chars_seen (hz : env.variant 0 = false) {t : Text} {gs : List (Text × Int)} (h : Seen env t gs) :
    (chars env (bytes t)).map (fun ch => (ch.bytes.length, ch.w)) = gs.map fun g => (g.1.length, g.2) := by
  obtain ⟨cs, ws, h1, h2, h3, rfl⟩ := h
  rw [chars_len _ _ (by rw [Ellipsify.glyphs_text h3, ← h1, bytes_length]), h1, Display.chars_go hz h3 fun c hc => (h2 c hc).1]
  simp [Function.comp_def]

/-- The number of cells. -/
def cols (gs : List (Text × Int)) : Nat := (gs.map fun g => g.2.toNat).sum

theorem cols_append (a b : List (Text × Int)) : cols (a ++ b) = cols a + cols b := by simp [cols]

theorem wcs_seen (hz : env.variant 0 = false) {t : Text} {gs : List (Text × Int)} (h : Seen env t gs) (hp : ∀ g ∈ gs, 0 < g.2) : wcs env t = cols gs := by
  have h1 := congrArg (List.map fun x : Nat × Int => if x.2 < 0 then 1 else x.2.toNat) (chars_seen hz h)
  simp only [List.map_map] at h1
  have h2 : ((fun x : Nat × Int => if x.2 < 0 then 1 else x.2.toNat) ∘ fun ch : Ch => (ch.bytes.length, ch.w)) = onectrl := by
    funext ch; simp [onectrl]
  rw [h2] at h1
  unfold wcs cols
  rw [h1]
  congr 1
  refine List.map_congr_left fun g hg => ?_
  have := hp g hg
  simp only [Function.comp]
  rw [if_neg (by omega)]

theorem seen_ne {t : Text} {gs : List (Text × Int)} (h : Seen env t gs) : ∀ g ∈ gs, g.1 ≠ [] := by
  obtain ⟨cs, ws, h1, h2, h3, rfl⟩ := h
  have hl : t.length = (flat cs).length := by rw [← h1, bytes_length]
  clear h1 h2
  induction h3 generalizing t with
  | nil => intro g hg; simp [split] at hg
  | @cons w rest n ws h _ ih =>
    rw [Ecma48.flat_append, List.length_append] at hl
    intro g hg
    simp only [split, List.mem_cons] at hg
    rcases hg with rfl | hg
    · have := Display.flat_pos (Ellipsify.glyph_ne h)
      intro hn
      have hn := congrArg List.length hn
      simp only [List.length_take, List.length_nil] at hn
      omega
    · exact ih (by simp; omega) g hg

/-- The widths of the same characters are the same. -/
theorem seen_width (hz : env.variant 0 = false) {t u : Text} {a b : Text × Int} {g1 g2 : List (Text × Int)} (h : Seen env t (a :: g1)) (h' : Seen env u (b :: g2))
    (he : a.1 = b.1) : a = b := by
  have s1 := (seen_between (g1 := [a]) h).1
  have s2 := (seen_between (g1 := [b]) h').1
  simp only [textOf, List.flatMap_cons, List.flatMap_nil, List.append_nil] at s1 s2
  rw [he] at s1
  simpa using seen_unique hz s1 s2

/-- The first place where the rows differ is between characters that both have. -/
theorem leftGo_go (hz : env.variant 0 = false) : ∀ (go gd : List (Text × Int)) (o d : Text) (co cd : List Ch) (s : Left), Seen env o go → Seen env d gd →
    (∀ g ∈ gd, 0 < g.2) → co.map (fun ch => (ch.bytes.length, ch.w)) = go.map (fun g => (g.1.length, g.2)) →
    cd.map (fun ch => (ch.bytes.length, ch.w)) = gd.map (fun g => (g.1.length, g.2)) →
    ((leftGo co cd o d s).wcol = s.wcol ∧ (leftGo co cd o d s).wind = s.wind) ∨
    ∃ g1 go' gd', go = g1 ++ go' ∧ gd = g1 ++ gd' ∧ (leftGo co cd o d s).wcol = s.col + cols g1 ∧ (leftGo co cd o d s).wind = s.ind + (textOf g1).length
  | [], gd, o, d, co, cd, s, _, _, _, hco, _ => by
    have : co = [] := by simpa using hco
    subst this
    left; exact ⟨by rw [leftGo]; simp, by rw [leftGo]; simp⟩
  | a :: go, [], o, d, co, cd, s, _, _, _, _, hcd => by
    have : cd = [] := by simpa using hcd
    subst this
    left; exact ⟨by rw [leftGo]; simp, by rw [leftGo]; simp⟩
  | a :: go, b :: gd, o, d, co, cd, s, ho, hd, hp, hco, hcd => by
    cases co with
    | nil => simp at hco
    | cons oc co =>
      cases cd with
      | nil => simp at hcd
      | cons dc cd =>
        simp only [List.map_cons, List.cons.injEq, Prod.mk.injEq] at hco hcd
        obtain ⟨⟨ho1, ho2⟩, hco⟩ := hco
        obtain ⟨⟨hd1, hd2⟩, hcd⟩ := hcd
        have hto := seen_text ho
        have htd := seen_text hd
        simp only [textOf, List.flatMap_cons] at hto htd
        rw [leftGo]
        split
        · left; exact ⟨rfl, rfl⟩
        · rename_i e1
          split
          · left; exact ⟨rfl, rfl⟩
          · rename_i e2
            have e1 : oc.bytes.length = dc.bytes.length := by omega
            have e2 : o.take dc.bytes.length = d.take dc.bytes.length := by
              by_cases e : o.take dc.bytes.length = d.take dc.bytes.length
              · exact e
              · exact absurd e e2
            have hab : a.1 = b.1 := by
              rw [hd1, ← hto, ← htd] at e2
              rw [List.take_left', List.take_left'] at e2
              · exact e2
              · rfl
              · omega
            have hab := seen_width hz ho hd hab
            subst hab
            have so := (seen_between (g1 := [a]) ho).2
            have sd := (seen_between (g1 := [a]) hd).2
            have ro : o.drop dc.bytes.length = textOf go := by rw [hd1, ← hto, List.drop_left']; rfl; rfl
            have rd : d.drop dc.bytes.length = textOf gd := by rw [hd1, ← htd, List.drop_left']; rfl; rfl
            have hpos := hp a (by simp)
            have hone : onectrl dc = a.2.toNat := by unfold onectrl; rw [hd2, if_neg (by omega)]
            dsimp only
            rw [ro, rd]
            have ih : ∀ s' : Left, s'.col = s.col + a.2.toNat → s'.ind = s.ind + a.1.length →
                (s'.wcol = s.wcol ∧ s'.wind = s.wind ∨ s'.wcol = s'.col ∧ s'.wind = s'.ind) →
                ((leftGo co cd (textOf go) (textOf gd) s').wcol = s.wcol ∧ (leftGo co cd (textOf go) (textOf gd) s').wind = s.wind) ∨
                ∃ g1 go' gd', a :: go = g1 ++ go' ∧ a :: gd = g1 ++ gd' ∧ (leftGo co cd (textOf go) (textOf gd) s').wcol = s.col + cols g1 ∧
                  (leftGo co cd (textOf go) (textOf gd) s').wind = s.ind + (textOf g1).length := by
              intro s' c1 c2 c3
              rcases leftGo_go hz go gd _ _ co cd s' so sd (fun g hg => hp g (by simp [hg])) hco hcd with ⟨r1, r2⟩ | ⟨g1, go', gd', r1, r2, r3, r4⟩
              · rcases c3 with c3 | c3
                · left; exact ⟨r1.trans c3.1, r2.trans c3.2⟩
                · right
                  exact ⟨[a], go, gd, rfl, rfl, by rw [r1, c3.1, c1]; simp [cols], by rw [r2, c3.2, c2]; simp [textOf]⟩
              · right
                refine ⟨a :: g1, go', gd', by simp [r1], by simp [r2], ?_, ?_⟩
                · rw [r3, c1]; simp [cols]; omega
                · rw [r4, c2]; simp [textOf]; omega
            split
            · exact ih _ (by simp [hone]) (by simp [hd1]) (.inr ⟨rfl, rfl⟩)
            · split
              · split
                · exact ih _ (by simp [hone]) (by simp [hd1]) (.inr ⟨rfl, rfl⟩)
                · exact ih _ (by simp [hone]) (by simp [hd1]) (.inl ⟨rfl, rfl⟩)
              · exact ih _ (by simp [hone]) (by simp [hd1]) (.inl ⟨rfl, rfl⟩)

/-! ### Where the rows end to differ -/

theorem lastLen_char {c : Nat} (hc : IsText c) (a : List Nat) : lastLen (a ++ specUtf8 c) = (specUtf8 c).length := by
  have := hc.1
  have := hc.2.1
  unfold lastLen
  rw [List.reverse_append]
  by_cases c1 : c < 0x80
  · simp [specUtf8, c1]
  · by_cases c2 : c < 0x800
    · have h1 : ¬ 128 + c % 64 < 128 := by omega
      have h2 : firstByte (192 + c / 64) = true := by simp [firstByte]
      simp [specUtf8, c1, c2, backGo, h2]
    · by_cases c3 : c < 0x10000
      · have h1 : ¬ 128 + c % 64 < 128 := by omega
        have h3 : firstByte (128 + c / 64 % 64) = false := by simp [firstByte]; omega
        have h2 : firstByte (224 + c / 4096) = true := by simp [firstByte]; omega
        simp [specUtf8, c1, c2, c3, backGo, h2, h3]
      · have h1 : ¬ 128 + c % 64 < 128 := by omega
        have h3 : firstByte (128 + c / 64 % 64) = false := by simp [firstByte]; omega
        have h4 : firstByte (128 + c / 4096 % 64) = false := by simp [firstByte]; omega
        have h2 : firstByte (240 + c / 262144) = true := by simp [firstByte]; omega
        simp [specUtf8, c1, c2, c3, backGo, h2, h3, h4]

theorem flat_last (cs : List Nat) (c : Nat) : flat (cs ++ [c]) = flat cs ++ specUtf8 c := by
  rw [Ecma48.flat_append]; simp [flat]

/-- Taking off the last character. -/
theorem last_char {t : Text} {cs : List Nat} (h : bytes t = flat cs) (hc : ∀ c ∈ cs, IsText c) (hn : t ≠ []) :
    ∃ cs', bytes (t.take (t.length - lastLen (bytes t))) = flat cs' ∧ (∀ c ∈ cs', IsText c) ∧ lastLen (bytes t) ≤ t.length ∧
      (lastLen (bytes t) = 1 → ∃ p, t.drop (t.length - lastLen (bytes t)) = [p] ∧ p.1 < 128) := by
  rcases List.eq_nil_or_concat cs with rfl | ⟨cs', c, rfl⟩
  · exact absurd h (bytes_ne hn)
  · rw [List.concat_eq_append] at h hc
    have ht : IsText c := hc c (by simp)
    rw [flat_last] at h
    have hl : lastLen (bytes t) = (specUtf8 c).length := by rw [h, lastLen_char ht]
    have hlen : t.length = (flat cs').length + (specUtf8 c).length := by rw [← bytes_length, h, List.length_append]
    rw [hl]
    have e : bytes (t.take (t.length - (specUtf8 c).length)) = flat cs' ∧ bytes (t.drop (t.length - (specUtf8 c).length)) = specUtf8 c := by
      have : bytes (t.take (t.length - (specUtf8 c).length)) ++ bytes (t.drop (t.length - (specUtf8 c).length)) = flat cs' ++ specUtf8 c := by
        rw [← bytes_append, List.take_append_drop, h]
      exact List.append_inj this (by rw [bytes_length, List.length_take]; omega)
    refine ⟨cs', e.1, fun x hx => hc x (by simp [hx]), by omega, ?_⟩
    intro h1
    have hc128 : c < 128 := by
      unfold specUtf8 at h1
      split at h1
      · omega
      · split at h1
        · simp at h1
        · split at h1 <;> simp at h1
    have e2 := e.2
    rw [Doskey.spec_ascii hc128] at e2
    rw [Doskey.spec_ascii hc128]
    cases hq : t.drop (t.length - [c].length) with
    | nil => rw [hq] at e2; simp [bytes] at e2
    | cons p q =>
      rw [hq] at e2
      simp only [bytes, List.map_cons, List.cons.injEq, List.map_eq_nil_iff] at e2
      exact ⟨p, by rw [e2.2], by omega⟩

/-- What is the same at the end starts with an ASCII character. -/
theorem rightGo_go (o d : Text) (bo bd : Nat) : ∀ cs, bytes d = flat cs → (∀ c ∈ cs, IsText c) →
    rightGo o d bo bd = (bo, bd) ∨
    ∃ u v p s, o = u ++ p :: s ∧ d = v ++ p :: s ∧ p.1 < 128 ∧ rightGo o d bo bd = (u.length, v.length) := by
  fun_induction rightGo o d bo bd with
  | case1 => intro cs _ _; left; rfl
  | case2 => intro cs _ _; left; rfl
  | case3 => intro cs _ _; left; rfl
  | case4 o d bo bd hn n h1 h2 h3 ih =>
    intro cs hb hc
    obtain ⟨cs', c1, c2, c3, c4⟩ := last_char hb hc (fun h => hn (.inr h))
    obtain ⟨p, hp, hp2⟩ := c4 h3
    have he : o.drop (o.length - n) = [p] := by
      by_cases e : o.drop (o.length - n) = d.drop (d.length - n)
      · rw [e]; exact hp
      · exact absurd e h2
    have eo : o = o.take (o.length - n) ++ [p] := by rw [← he, List.take_append_drop]
    have ed : d = d.take (d.length - n) ++ [p] := by
      have := List.take_append_drop (d.length - n) d
      rw [show d.drop (d.length - n) = [p] from hp] at this
      exact this.symm
    right
    rcases ih cs' c1 c2 with r | ⟨u, v, q, s, r1, r2, r3, r4⟩
    · refine ⟨o.take (o.length - n), d.take (d.length - n), p, [], eo, ed, hp2, ?_⟩
      rw [r]
      simp only [List.length_take, Prod.mk.injEq]
      omega
    · refine ⟨u, v, q, s ++ [p], ?_, ?_, r3, r4⟩
      · rw [eo, r1]; simp
      · rw [ed, r2]; simp
  | case5 o d bo bd hn n h1 h2 h3 ih =>
    intro cs hb hc
    obtain ⟨cs', c1, c2, c3, c4⟩ := last_char hb hc (fun h => hn (.inr h))
    have he : o.drop (o.length - n) = d.drop (d.length - n) := by
      by_cases e : o.drop (o.length - n) = d.drop (d.length - n)
      · exact e
      · exact absurd e h2
    rcases ih cs' c1 c2 with r | ⟨u, v, q, s, r1, r2, r3, r4⟩
    · left; exact r
    · right
      refine ⟨u, v, q, s ++ d.drop (d.length - n), ?_, ?_, r3, r4⟩
      · have := List.take_append_drop (o.length - n) o
        rw [he, r1] at this
        simpa using this.symm
      · have := List.take_append_drop (d.length - n) d
        rw [r2] at this
        simpa using this.symm

/-- The same, from the whole rows. -/
theorem rightGo_whole {o d : Text} {gs : List (Text × Int)} (hd : Seen env d gs) :
    ∃ u v s, o = u ++ s ∧ d = v ++ s ∧ Edge s ∧ rightGo o d o.length d.length = (u.length, v.length) := by
  obtain ⟨cs, ws, h1, h2, h3, h4⟩ := hd
  rcases rightGo_go o d o.length d.length cs h1 (fun c hc => (h2 c hc).1) with h | ⟨u, v, p, s, r1, r2, r3, r4⟩
  · exact ⟨o, d, [], by simp, by simp, by intro p hp; simp at hp, h⟩
  · refine ⟨u, v, p :: s, r1, r2, ?_, r4⟩
    intro q hq
    obtain rfl : p = q := by simpa using hq
    exact r3

/-! ### Runs of a face -/

theorem run_glyphs (f : Nat) : ∀ (gs : List (Text × Int)), (∀ g ∈ gs, g.1 ≠ [] ∧ ∀ p ∈ g.1, ∀ q ∈ g.1, p.2 = q.2) →
    ∃ g1 g2, gs = g1 ++ g2 ∧ ((textOf gs).takeWhile fun q => q.2 == f) = textOf g1
  | [], _ => ⟨[], [], rfl, rfl⟩
  | g :: gs, h => by
    obtain ⟨hn, hf⟩ := h g (by simp)
    obtain ⟨g1, g2, r1, r2⟩ := run_glyphs f gs fun x hx => h x (by simp [hx])
    by_cases hall : ∀ q ∈ g.1, q.2 = f
    · refine ⟨g :: g1, g2, by simp [r1], ?_⟩
      simp only [textOf, List.flatMap_cons] at r2 ⊢
      rw [List.takeWhile_append_of_pos (by simpa using hall), r2]
    · refine ⟨[], g :: gs, rfl, ?_⟩
      cases hg : g.1 with
      | nil => exact absurd hg hn
      | cons q qs =>
        simp only [textOf, List.flatMap_cons, List.flatMap_nil, hg, List.cons_append]
        rw [List.takeWhile_cons, if_neg]
        intro hq
        apply hall
        intro x hx
        rw [hf x hx q (by simp [hg])]
        simpa using hq

/-- The part that is added to what differs ends between characters. -/
theorem histMore_go {m s : Text} {gs : List (Text × Int)} (h : Seen env s gs) (hf : ∀ g ∈ gs, ∀ p ∈ g.1, ∀ q ∈ g.1, p.2 = q.2) :
    ∃ g1 g2, gs = g1 ++ g2 ∧ histMore m s = (textOf g1).length := by
  unfold histMore
  split
  · exact ⟨[], gs, rfl, rfl⟩
  · split
    · rename_i p _ _
      obtain ⟨g1, g2, r1, r2⟩ := run_glyphs p.2 gs fun g hg => ⟨seen_ne h g hg, hf g hg⟩
      rw [seen_text h] at r2
      exact ⟨g1, g2, r1, by rw [r2]⟩
    · exact ⟨[], gs, rfl, rfl⟩

/-! ### Clearing to the end -/

/-- If it is possible to clear to the end, there is at most one space. -/
theorem eolGo_go {v s : Text} (h0 : (v ++ s).head? ≠ some (32, 48)) (h2 : ¬ TwoSpaces (v ++ s)) :
    ∃ b, eolGo (v ++ s) s.length v.length = some b ∧ (b = true → s = [] ∨ s = [(32, 48)]) := by
  cases s with
  | nil => exact ⟨true, rfl, fun _ => .inl rfl⟩
  | cons p s =>
    simp only [List.length_cons, eolGo]
    have hp : (v ++ p :: s)[v.length]? = some p := by simp
    rw [hp]
    split
    · exact ⟨false, rfl, by simp⟩
    · rename_i hp2
      have hp3 : p = (32, 48) := by
        by_cases h : p = (32, 48)
        · exact h
        · exact absurd (fun e => h (by simpa [faceNormal] using e)) hp2
      split
      · rename_i hs
        have : s = [] := List.length_eq_zero_iff.1 hs
        exact ⟨true, rfl, fun _ => .inr (by rw [hp3, this])⟩
      · rename_i hs
        rcases List.eq_nil_or_concat v with rfl | ⟨v', q, rfl⟩
        · rw [hp3] at h0; exact absurd rfl h0
        · simp only [List.concat_eq_append] at h2 ⊢
          rw [if_neg (by simp)]
          obtain ⟨k, hk⟩ : ∃ k, s.length = k + 1 := ⟨s.length - 1, by omega⟩
          rw [hk, eolGo]
          rw [if_pos]
          · exact ⟨false, rfl, by simp⟩
          · have : (v' ++ [q] ++ p :: s)[(v' ++ [q]).length - 1]? = some q := by simp
            rw [this]
            intro e
            have e : q = (32, 48) := by simpa [faceNormal] using e
            exact h2 ⟨v', s, by rw [e, hp3]; simp⟩

end Clink.Redraw
