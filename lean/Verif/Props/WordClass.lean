import Verif.Proof.WordClass

/-!
C38: the colours of the input line.

`run grow ops {}` is what happens to the `word_classifications` of a line editor from its beginning on, with the colours that
were asked for and the faces they got; `grow` is how the vector of colours grows.  `none` is undefined behaviour.
-/

namespace Clink.WordClass

open Color (bs)
open Spec

/-- Nothing undefined happens, unless a colour is empty (see `C38_empty_fails`). -/
theorem C38_safe (grow : Nat → Nat) (ops : List Op) (h : ∀ op ∈ ops, op ≠ .ensure []) : (run grow ops {}).isSome = true := by
  obtain ⟨st, l, h1, -⟩ := run_start grow ops h
  rw [h1]; rfl

/-- Two colours have the same face if and only if they differ in the case of letters at most. -/
theorem C38_codes (grow : Nat → Nat) {ops : List Op} (h : ∀ op ∈ ops, op ≠ .ensure []) {st : State} {log : List (List Nat × Nat)}
    (hr : run grow ops {} = some (st, log)) {s t : List Nat} {c d : Nat} (hs : (s, c) ∈ log) (ht : (t, d) ∈ log) (hc : c ≠ 0) (hd : d ≠ 0) :
    c = d ↔ Caseless s t := by
  obtain ⟨st', l', h1, h2, h3⟩ := run_start grow ops h
  rw [h1, Option.some.injEq, Prod.mk.injEq] at hr
  obtain ⟨rfl, rfl⟩ := hr
  obtain ⟨i, x, rfl, hx, hxs⟩ := h3.given s c hs hc
  obtain ⟨j, y, rfl, hy, hyt⟩ := h3.given t d ht hd
  constructor
  · intro he
    have : i = j := by omega
    subst this
    rw [hx, Option.some.injEq] at hy
    subst hy
    exact hxs.symm.trans hyt
  · intro he
    have hxy : Caseless x y := hxs.trans (Eq.trans he hyt.symm)
    obtain ⟨hi, rfl⟩ := List.getElem?_eq_some_iff.1 hx
    obtain ⟨hj, rfl⟩ := List.getElem?_eq_some_iff.1 hy
    have hd := List.pairwise_iff_getElem.1 h2.distinct
    rcases Nat.lt_trichotomy i j with hij | hij | hij
    · exact absurd hxy (hd i j hi hj hij)
    · rw [hij]
    · exact absurd (Eq.symm hxy) (hd j i hj hi hij)

/-- The colour of a face is the one it was first given for; it is at least 128, which no other face is. -/
theorem C38_output (grow : Nat → Nat) {ops : List Op} (h : ∀ op ∈ ops, op ≠ .ensure []) {st : State} {log : List (List Nat × Nat)}
    (hr : run grow ops {} = some (st, log)) {s : List Nat} {c : Nat} (hs : (s, c) ∈ log) (hc : c ≠ 0) :
    128 ≤ c ∧ c < 228 ∧ ∃ d, getFaceOutput st c = some d ∧ Caseless d s ∧ log.find? (·.2 == c) = some (d, c) := by
  obtain ⟨st', l', h1, h2, h3⟩ := run_start grow ops h
  rw [h1, Option.some.injEq, Prod.mk.injEq] at hr
  obtain ⟨rfl, rfl⟩ := hr
  obtain ⟨i, d, rfl, hd, hds⟩ := h3.given s c hs hc
  have hi : i < st'.defs.length := (List.getElem?_eq_some_iff.1 hd).1
  have := h2.few
  refine ⟨by omega, by omega, d, ?_, hds, h3.first i d hd⟩
  unfold getFaceOutput
  rw [if_neg (by omega), Nat.add_sub_cancel_left, hd]

/-- A colour is refused only if it has no face and all 100 faces are taken. -/
theorem C38_refused (grow : Nat → Nat) {ops : List Op} (h : ∀ op ∈ ops, op ≠ .ensure []) {st : State} {log : List (List Nat × Nat)}
    (hr : run grow ops {} = some (st, log)) {s : List Nat} (hs : (s, 0) ∈ log) :
    (∀ c, 128 ≤ c → c < 228 → ∃ t, (t, c) ∈ log) ∧ ∀ t c, (t, c) ∈ log → c ≠ 0 → ¬ Caseless t s := by
  obtain ⟨st', l', h1, h2, h3⟩ := run_start grow ops h
  rw [h1, Option.some.injEq, Prod.mk.injEq] at hr
  obtain ⟨rfl, rfl⟩ := hr
  obtain ⟨h4, h5⟩ := h3.refused s hs
  constructor
  · intro c h6 h7
    have hg := h3.first (c - 128) _ (List.getElem?_eq_getElem (by omega))
    have := List.mem_of_find?_eq_some hg
    rw [show 128 + (c - 128) = c by omega] at this
    exact ⟨_, this⟩
  · intro t c hm hc hcl
    obtain ⟨i, d, -, hd, hdt⟩ := h3.given t c hm hc
    exact h5 d (List.mem_of_getElem? hd) (Eq.trans hdt hcl)

/-- Giving a face to a range changes the faces in the range and in the line, all of them or only those that are not set, and
nothing else. -/
theorem C38_apply (grow : Nat → Nat) {ops : List Op} (h : ∀ op ∈ ops, op ≠ .ensure []) {st : State} {log : List (List Nat × Nat)}
    (hr : run grow ops {} = some (st, log)) (start length face : Nat) (overwrite : Bool) :
    ∃ st', applyFace false start length face overwrite st = some st' ∧ st'.words = st.words ∧ st'.len = st.len ∧ st'.defs = st.defs ∧
      st'.infos = st.infos ∧ ∀ p f, getFace st p = some f →
        getFace st' p = some (if start ≤ p ∧ p < start + length ∧ p < st.len ∧ (overwrite = true ∨ f = 32) then face else f) := by
  obtain ⟨st', l', h1, h2, h3⟩ := run_start grow ops h
  rw [h1, Option.some.injEq, Prod.mk.injEq] at hr
  obtain ⟨rfl, rfl⟩ := hr
  obtain ⟨s2, g1, g2, g3, g4, g5, g6, g7, g8⟩ := apply_inv h2 false start length face overwrite
  refine ⟨s2, g1, List.ext_getElem? fun p => by rw [g8]; rfl, g4, g3, g6, fun p f hf => ?_⟩
  unfold getFace at hf ⊢
  rw [g4]
  by_cases hp : p ≥ st'.len
  · rw [if_pos hp, Option.some.injEq] at hf ⊢
    rw [if_neg (by omega), hf]
  · rw [if_neg hp] at hf ⊢
    rw [g7, hf]
    simp only [Option.map_some, Bool.false_eq_true, if_false, paint, Option.some.injEq]
    congr 1
    apply propext
    constructor
    · rintro ⟨a, b, c⟩; exact ⟨a, b, by omega, c⟩
    · rintro ⟨a, b, -, c⟩; exact ⟨a, b, c⟩

/-- After a line was drawn, a position has the face painted on the characters, or else the face painted on the words.  Of the
faces painted on it, the last one that overwrites counts, or else the first one (see `Painted`). -/
theorem C38_shown (grow : Nat → Nat) {before ops : List Op} (h0 : ∀ op ∈ before, op ≠ .ensure []) (h : ∀ op ∈ ops, op ≠ .ensure [])
    (hd : ∀ op ∈ ops, Drawing op) (n : Nat) (a : Bool) {p f g : Nat} (hf : Painted p (paints false ops) f) (hg : Painted p (paints true ops) g) :
    ∃ st log, run grow (before ++ .line n a :: (ops ++ [.finish])) {} = some (st, log) ∧
      getFace st p = some (if p < n then (if f = 32 then g else f) else 32) := by
  obtain ⟨s0, l0, h1, h2, h3⟩ := run_start grow before h0
  obtain ⟨s1, g1, g2, g3, g4, g5, g6, -⟩ := init_inv grow (st := {}) h2 n a
  obtain ⟨s2, l2, e1, e2, e3, e4, e5, e6⟩ := run_paint grow ops g2 (log_defs h3 g3) hd h
  refine ⟨finish s2, l0 ++ l2, ?_, ?_⟩
  · rw [run_append, h1]
    simp [run, step, g1, run_append, e1]
  · have hlen : (finish s2).len = n := e4.trans g6
    unfold getFace
    rw [hlen]
    by_cases hp : p < n
    · rw [if_neg (by omega), if_pos hp]
      have a1 : s2.faces[p]? = some f := by
        rw [e5, g4, List.getElem?_replicate, if_pos hp, Option.map_some, painted_paintAll hf]
      have a2 : s2.words[p]? = some g := by
        rw [e6, g5, List.getElem?_replicate, if_pos hp, Option.map_some, painted_paintAll hg]
      have hz : (s2.faces.zip s2.words)[p]? = some (f, g) := by
        rw [List.getElem?_zip_eq_some]; exact ⟨a1, a2⟩
      simp only [finish, List.getElem?_map, hz, Option.map_some]
    · rw [if_pos (by omega), if_neg hp]

/-- `Painted` always says which face a position has (a face that is painted is not 32). -/
theorem C38_painted (p : Nat) (l : List Paint) (h : Visible l) : ∃ f, Painted p l f ∧ ∀ g, Painted p l g → g = f := by
  obtain ⟨f, hf⟩ := painted_exists p l h
  exact ⟨f, hf, fun g hg => (painted_paintAll hg).symm.trans (painted_paintAll hf)⟩

/-- Lines are taken as equal if and only if they are both empty, or have the same faces, colours and classes, if no face is
0.  (So the line is drawn again exactly if something has changed.) -/
theorem C38_equals (grow : Nat → Nat) {as bs : List Op} (ha : ∀ op ∈ as, op ≠ .ensure []) (hb : ∀ op ∈ bs, op ≠ .ensure [])
    (fa : ∀ w s n f o, Op.apply w s n f o ∈ as → f ≠ 0) {a b : State} {la lb : List (List Nat × Nat)}
    (ra : run grow as {} = some (a, la)) (rb : run grow bs {} = some (b, lb)) :
    equals a b = true ↔ (a.len = 0 ∧ b.len = 0) ∨
      (a.len ≠ 0 ∧ a.len = b.len ∧ a.faces = b.faces ∧ a.words = b.words ∧ a.defs = b.defs ∧ a.infos = b.infos) := by
  have hn := run_noNul grow as inv_empty ⟨by simp, by simp⟩ ha fa ra
  obtain ⟨a', la', h1, h2, -⟩ := run_start grow as ha
  rw [h1, Option.some.injEq, Prod.mk.injEq] at ra
  obtain ⟨rfl, rfl⟩ := ra
  obtain ⟨b', lb', g1, g2, -⟩ := run_start grow bs hb
  rw [g1, Option.some.injEq, Prod.mk.injEq] at rb
  obtain ⟨rfl, rfl⟩ := rb
  unfold equals
  by_cases h0 : a'.len = 0 ∧ b'.len = 0
  · rw [if_pos h0]; simp [h0]
  · rw [if_neg h0]
    by_cases h00 : a'.len = 0 ∨ b'.len = 0
    · rw [if_pos h00]
      simp only [Bool.false_eq_true, false_iff, not_or]
      exact ⟨h0, by rintro ⟨x, y, -⟩; omega⟩
    · rw [if_neg h00]
      by_cases hl : a'.len = b'.len
      · simp only [Bool.and_eq_true, beq_iff_eq, strncmp_eq h2.faces (g2.faces.trans hl.symm) hn.1,
          strncmp_eq h2.words (g2.words.trans hl.symm) hn.2]
        constructor
        · rintro ⟨⟨⟨⟨⟨-, x1⟩, x2⟩, x3⟩, x4⟩, x5⟩
          exact .inr ⟨fun hc => h00 (.inl hc), x1, x2, x3, x4, x5⟩
        · rintro (x | ⟨-, x1, x2, x3, x4, x5⟩)
          · exact absurd x h0
          · exact ⟨⟨⟨⟨⟨by rw [x4], x1⟩, x2⟩, x3⟩, x4⟩, x5⟩
      · simp only [Bool.and_eq_true, beq_iff_eq]
        constructor
        · rintro ⟨⟨⟨⟨⟨-, x1⟩, -⟩, -⟩, -⟩, -⟩; exact absurd x1 hl
        · rintro (x | ⟨-, x1, -⟩)
          · exact absurd x h0
          · exact absurd x1 hl

/-- Classifying a word sets its class, unless it has one and is not to be overwritten; other words keep their class. -/
theorem C38_classify (c w wc : Nat) (arg overwrite : Bool) (st : State) :
    (∃ i, infoAt (classifyWord c w wc arg overwrite st) c w = some i ∧
      (∀ old, infoAt st c w = some old → old.cls ≠ 255 → overwrite = false → i = old) ∧
      ((overwrite = true ∨ ∀ old, infoAt st c w = some old → old.cls = 255) →
        i.cls = toWordClass wc ∧ (i.argmatcher = true ↔ arg = true ∨ ∃ old, infoAt st c w = some old ∧ old.argmatcher = true))) ∧
    ∀ c' w', (c', w') ≠ (c, w) →
      infoAt (classifyWord c w wc arg overwrite st) c' w' = infoAt st c' w' ∨
      (infoAt st c' w' = none ∧ infoAt (classifyWord c w wc arg overwrite st) c' w' = some {}) := by
  obtain ⟨infos, hi⟩ : ∃ infos, infos = resize (st.infos.getD []) (c + 1) [] := ⟨_, rfl⟩
  obtain ⟨row, hrow⟩ : ∃ row, row = resize (infos.getD c []) (w + 1) {} := ⟨_, rfl⟩
  have hlen : c < infos.length := by have := resize_length (st.infos.getD []) (c + 1) ([] : List Info); rw [hi]; omega
  have hrl : w < row.length := by have := resize_length (infos.getD c []) (w + 1) ({} : Info); rw [hrow]; omega
  have hold : infos.getD c [] = ((st.infos.getD [])[c]?).getD [] := by
    rw [List.getD_eq_getElem?_getD, hi, resize_getD_nil]
  have hinfo : ∀ i, infoAt (classifyWord c w wc arg overwrite st) c i =
      (row.set w (if overwrite || (row.getD w {}).cls == 255 then { argmatcher := arg || (row.getD w {}).argmatcher, cls := toWordClass wc }
        else row.getD w {}))[i]? := by
    intro i
    unfold infoAt classifyWord
    simp only [Option.getD_some]
    rw [← hi, ← hrow, List.getElem?_set_self hlen, Option.getD_some]
  have hrw : ∀ i, row[i]? = infoAt st c i ∨ (infoAt st c i = none ∧ row[i]? = some {}) := by
    intro i
    rw [hrow, resize_get, hold]
    unfold infoAt
    split
    · left; rfl
    · rw [List.getElem?_eq_none (by omega)]
      split
      · right; exact ⟨rfl, rfl⟩
      · left; rfl
  have hget : row.getD w {} = (infoAt st c w).getD {} := by
    rw [List.getD_eq_getElem?_getD]
    rcases hrw w with h | ⟨h1, h2⟩
    · rw [h]
    · rw [h1, h2]; rfl
  constructor
  · refine ⟨_, by rw [hinfo, List.getElem?_set_self hrl], ?_, ?_⟩
    · intro old ho h255 hov
      rw [hget, ho, Option.getD_some, hov, if_neg (by simpa using h255)]
    · intro hcond
      have hc : (overwrite || (row.getD w {}).cls == 255) = true := by
        rcases hcond with h | h
        · rw [h]; rfl
        · rw [hget]
          cases ho : infoAt st c w with
          | none => simp
          | some old => simp [h old ho]
      rw [if_pos hc, hget]
      refine ⟨rfl, ?_⟩
      cases ho : infoAt st c w with
      | none => simp
      | some old => simp
  · intro c' w' hne
    by_cases hc : c' = c
    · subst hc
      have hw : w' ≠ w := fun h => hne (by rw [h])
      rw [hinfo, List.getElem?_set_ne (Ne.symm hw)]
      exact hrw w'
    · left
      unfold infoAt classifyWord
      simp only [Option.getD_some]
      rw [← hi, List.getElem?_set_ne (Ne.symm hc), hi, resize_getD_nil]

/-! Scripts. -/

/-- `applycolor`: `start` counts from 1; nothing happens if it is less; a negative length reaches to the end of the line; and
nothing is coloured if the colour is refused. -/
theorem C38_applycolor (grow : Nat → Nat) {ops : List Op} (h : ∀ op ∈ ops, op ≠ .ensure []) {st : State} {log : List (List Nat × Nat)}
    (hr : run grow ops {} = some (st, log)) (hlen : st.len < 2147483648) {start length : Int} (hs : -2147483648 < start) (hs' : start < 2147483648)
    (hl : -2147483648 ≤ length) (hl' : length < 2147483648) {color : List Nat} (hcolor : color ≠ []) (overwrite : Bool) :
    ∃ st' face, applyColor grow start length color overwrite st = some st' ∧ st'.len = st.len ∧ st'.words = st.words ∧
      (face ≠ 0 → ∃ d, getFaceOutput st' face = some d ∧ Caseless d color) ∧
      (face = 0 → st' = st ∧ st.defs.length = 100 ∧ ∀ d ∈ st.defs, ¬ Caseless d color) ∧
      ∀ p f, getFace st p = some f → p < st.len →
        getFace st' p = some (if face ≠ 0 ∧ start ≥ 1 ∧ start - 1 ≤ p ∧ (length < 0 ∨ p < start - 1 + length) ∧ (overwrite = true ∨ f = 32)
          then face else f) := by
  obtain ⟨s0, l', h1, h2, h3⟩ := run_start grow ops h
  rw [h1, Option.some.injEq, Prod.mk.injEq] at hr
  obtain ⟨rfl, rfl⟩ := hr
  have key : ∀ (s1 : State) (face : Nat), Inv s1 → s1.faces = s0.faces → s1.words = s0.words → s1.len = s0.len → face ≠ 0 →
      ∃ s2, applyFace false (u32 (start - 1)) (u32 length) face overwrite s1 = some s2 ∧ s2.len = s0.len ∧ s2.words = s0.words ∧ s2.defs = s1.defs ∧
        ∀ p f, getFace s0 p = some f → p < s0.len →
          getFace s2 p = some (if face ≠ 0 ∧ start ≥ 1 ∧ start - 1 ≤ p ∧ (length < 0 ∨ p < start - 1 + length) ∧ (overwrite = true ∨ f = 32)
            then face else f) := by
    intro s1 face hi hf hw hl1 hface
    obtain ⟨s2, g1, g2, g3, g4, g5, g6, g7, g8⟩ := apply_inv hi false (u32 (start - 1)) (u32 length) face overwrite
    refine ⟨s2, g1, g4.trans hl1, (List.ext_getElem? fun p => by rw [g8]; rfl : s2.words = s1.words).trans hw, g3, fun p f hfp hp => ?_⟩
    unfold getFace at hfp ⊢
    rw [if_neg (by omega)] at hfp
    rw [g4, hl1, if_neg (by omega), g7, hf, hfp]
    simp only [Option.map_some, Bool.false_eq_true, if_false, paint, Option.some.injEq]
    congr 1
    apply propext
    unfold u32
    constructor
    · rintro ⟨a, b, c⟩
      exact ⟨hface, by omega, by omega, by omega, c⟩
    · rintro ⟨-, a, b, c, d⟩
      exact ⟨by omega, by omega, d⟩
  rcases ensure_inv grow h2 hcolor with ⟨i, d, g1, g2, g3⟩ | ⟨g1, g2, g3⟩ | ⟨s1, g1, g2, g3, g4, g5, g6, g7, g8, g9, g10⟩
  · obtain ⟨s2, e1, e2, e3, e4, e5⟩ := key s0 (128 + i) h2 rfl rfl rfl (by omega)
    refine ⟨s2, 128 + i, ?_, e2, e3, fun _ => ⟨d, ?_, g2⟩, fun hc => by omega, e5⟩
    · simp only [applyColor, g3, Option.bind_some]
      rw [if_neg (by omega), e1]
    · unfold getFaceOutput
      rw [if_neg (by omega), e4, Nat.add_sub_cancel_left, g1]
  · refine ⟨s0, 0, ?_, rfl, rfl, fun hc => absurd rfl hc, fun _ => ⟨rfl, g1, g2⟩, fun p f hf _ => by simpa using hf⟩
    simp [applyColor, g3]
  · obtain ⟨s2, e1, e2, e3, e4, e5⟩ := key s1 (128 + s0.defs.length) g4 g6 g7 g8 (by omega)
    refine ⟨s2, 128 + s0.defs.length, ?_, e2, e3, fun _ => ⟨color, ?_, rfl⟩, fun hc => by omega, e5⟩
    · simp only [applyColor, g3, Option.bind_some]
      rw [if_neg (by omega), e1]
    · unfold getFaceOutput
      rw [if_neg (by omega), e4, Nat.add_sub_cancel_left, g5]
      simp

/-- The faces and numbers of the classes; an unknown letter is the same as `o`. -/
theorem C38_letters (c : Nat) : (∃ i, i < 8 ∧ (bs "ouxcdafn")[i]? = some c ∧ classFace c = c ∧ toWordClass c = i) ∨
    (c ∉ bs "ouxcdafn" ∧ classFace c = classFace 111 ∧ toWordClass c = toWordClass 111) := by
  by_cases hc : c ∈ bs "ouxcdafn"
  · left
    have hc' : c ∈ [111, 117, 120, 99, 100, 97, 102, 110] := hc
    simp only [List.mem_cons, List.not_mem_nil, or_false] at hc'
    rcases hc' with rfl | rfl | rfl | rfl | rfl | rfl | rfl | rfl
    · exact ⟨0, by decide⟩
    · exact ⟨1, by decide⟩
    · exact ⟨2, by decide⟩
    · exact ⟨3, by decide⟩
    · exact ⟨4, by decide⟩
    · exact ⟨5, by decide⟩
    · exact ⟨6, by decide⟩
    · exact ⟨7, by decide⟩
  · right
    refine ⟨hc, by rw [classFace, if_neg hc]; decide, ?_⟩
    have : (bs "ouxcdafn").findIdx? (· == c) = none := by
      rw [List.findIdx?_eq_none_iff]
      intro x hx
      simp only [beq_eq_false_iff_ne]
      rintro rfl
      exact hc hx
    rw [toWordClass]
    have h2 : (Color.bs "ouxcdafn").findIdx? (· == c) = none := this
    rw [h2]; decide

/-- `classifyword`: an index that is not that of a word is an error, and nothing is changed; otherwise the word gets the face of
its class.  In tests the class is noted for the word, counted from the first word of the line. -/
theorem C38_classifyword (grow : Nat → Nat) {ops : List Op} (h : ∀ op ∈ ops, op ≠ .ensure []) {st : State} {log : List (List Nat × Nat)}
    (hr : run grow ops {} = some (st, log)) (w : Words) (hw : w.words.length < 2147483648) {index : Int} (hi : -2147483648 < index)
    (hi' : index < 2147483648) (c : Nat) (hc : c ≠ 109) (rest : List Nat) (overwrite : Bool) :
    (¬ (1 ≤ index ∧ index ≤ w.words.length) → luaClassify w index (c :: rest) overwrite st = some (st, false)) ∧
    ∀ k start length : Nat, index = (k : Int) + 1 → w.words[k]? = some (start, length) →
      ∃ st', luaClassify w index (c :: rest) overwrite st = some (st', true) ∧ st'.faces = st.faces ∧ st'.len = st.len ∧
        st'.infos = (if w.test then (classifyWord w.cmd (k + w.shift) c false overwrite st).infos else st.infos) ∧
        ∀ p f, st.words[p]? = some f →
          st'.words[p]? = some (if start ≤ p ∧ p < start + length ∧ (overwrite = true ∨ f = 32) then classFace c else f) := by
  obtain ⟨s0, l', h1, h2, h3⟩ := run_start grow ops h
  rw [h1, Option.some.injEq, Prod.mk.injEq] at hr
  obtain ⟨rfl, rfl⟩ := hr
  have hm : (c == 109) = false := by simpa using hc
  constructor
  · intro hn
    unfold luaClassify
    dsimp only
    rw [List.getElem?_eq_none (by unfold u32; omega)]
  · intro k start length hk hword
    have hu : u32 (index - 1) = k := by
      have := (List.getElem?_eq_some_iff.1 hword).1
      unfold u32; omega
    obtain ⟨s2, g1, g2, g3, g4, g5, g6, g7, g8⟩ := apply_inv h2 true start length (classFace c) overwrite
    unfold luaClassify
    dsimp only
    rw [hu, hword]
    simp only [List.headD_cons, hm, Bool.false_and, Bool.false_eq_true, if_false, g1, Option.map_some]
    refine ⟨_, rfl, ?_, ?_, ?_, ?_⟩
    · split
      · exact (List.ext_getElem? fun p => by rw [g7]; rfl : s2.faces = s0.faces)
      · exact (List.ext_getElem? fun p => by rw [g7]; rfl : s2.faces = s0.faces)
    · split <;> exact g4
    · split
      · unfold classifyWord; simp only [g6]
      · exact g6
    · intro p f hf
      have : ∀ x : State, x.words = s2.words → x.words[p]? =
          some (if start ≤ p ∧ p < start + length ∧ (overwrite = true ∨ f = 32) then classFace c else f) := by
        intro x hx
        rw [hx, g8, hf]; rfl
      split
      · exact this _ rfl
      · exact this _ rfl

/-- With `m` before the class, the command word gets the face of commands with argmatchers, if that is shown. -/
theorem C38_classifyword_m (grow : Nat → Nat) {ops : List Op} (h : ∀ op ∈ ops, op ≠ .ensure []) {st : State} {log : List (List Nat × Nat)}
    (hr : run grow ops {} = some (st, log)) (w : Words) (hw : w.words.length < 2147483648) (c : Nat) (rest : List Nat) (overwrite : Bool)
    {k start length : Nat} (hword : w.words[k]? = some (start, length)) :
    ∃ st', luaClassify w ((k : Int) + 1) (109 :: c :: rest) overwrite st = some (st', true) ∧ st'.faces = st.faces ∧ st'.len = st.len ∧
        st'.infos = (if w.test then (classifyWord w.cmd (k + w.shift) c (k = w.cmdWord) overwrite st).infos else st.infos) ∧
        ∀ p f, st.words[p]? = some f →
          st'.words[p]? = some (if start ≤ p ∧ p < start + length ∧ (overwrite = true ∨ f = 32) then
            (if k = w.cmdWord ∧ st.argmatchers = true then 109 else classFace c) else f) := by
  obtain ⟨s0, l', h1, h2, h3⟩ := run_start grow ops h
  rw [h1, Option.some.injEq, Prod.mk.injEq] at hr
  obtain ⟨rfl, rfl⟩ := hr
  have hu : u32 ((k : Int) + 1 - 1) = k := by
    have := (List.getElem?_eq_some_iff.1 hword).1
    unfold u32; omega
  obtain ⟨face, hface⟩ : ∃ face, face = if k = w.cmdWord ∧ s0.argmatchers = true then 109 else classFace c := ⟨_, rfl⟩
  obtain ⟨s2, g1, g2, g3, g4, g5, g6, g7, g8⟩ := apply_inv h2 true start length face overwrite
  have hf : (if (k == w.cmdWord && s0.argmatchers) = true then 109 else classFace c) = face := by
    rw [hface]; simp
  unfold luaClassify
  dsimp only
  rw [hu, hword]
  simp only [List.headD_cons, beq_self_eq_true, Bool.true_and, if_true, List.drop_succ_cons, List.drop_zero, hf, g1, Option.map_some, ← hface]
  refine ⟨_, rfl, ?_, ?_, ?_, ?_⟩
  · split
    · exact (List.ext_getElem? fun p => by rw [g7]; rfl : s2.faces = s0.faces)
    · exact (List.ext_getElem? fun p => by rw [g7]; rfl : s2.faces = s0.faces)
  · split <;> exact g4
  · split
    · have hk : (k == w.cmdWord) = decide (k = w.cmdWord) := by by_cases hk : k = w.cmdWord <;> simp [hk]
      unfold classifyWord; simp only [g6, hk]
    · exact g6
  · intro p f hf
    have : ∀ x : State, x.words = s2.words → x.words[p]? =
        some (if start ≤ p ∧ p < start + length ∧ (overwrite = true ∨ f = 32) then face else f) := by
      intro x hx
      rw [hx, g8, hf]; rfl
    split
    · exact this _ rfl
    · exact this _ rfl

/-! Examples, and what is not so. -/

/-- How the vector grows with MSVC, and with libstdc++. -/
def growMsvc (n : Nat) : Nat := max (n + 1) (n + n / 2)
def growGcc (n : Nat) : Nat := if n = 0 then 1 else 2 * n

/-- If the first colour is empty, the second one makes the map compare it with a string that has moved. -/
theorem C38_empty_fails (grow : Nat → Nat) (h : grow 0 = 1) (s : List Nat) (hs : s ≠ []) :
    run grow [.ensure [], .ensure s] {} = none := by
  cases s with
  | nil => exact absurd rfl hs
  | cons c s => simp [run, step, ensureFace, addDef, emplaceBack, emplaceMap, Settings.same, h]

example : growMsvc 0 = 1 ∧ growGcc 0 = 1 := by decide

/-- Colours that differ in case have the same face: the second one is shown as the first one. -/
theorem C38_case_fails : ∃ s t : List Nat, s ≠ t ∧ (run growMsvc [.ensure s, .ensure t] {}).map
    (fun r => (r.2, getFaceOutput r.1 128)) = some ([(s, 128), (t, 128)], some s) :=
  ⟨bs "x", bs "X", by decide +kernel, by decide +kernel⟩

/-- Faces after a 0 are not compared.  (Scripts cannot set the face 0, see `C38_applycolor`.) -/
theorem C38_nul_fails : ∃ a b : State, (∃ l, run growMsvc [.line 2 false, .apply false 0 2 0 true] {} = some (a, l)) ∧
    (∃ l, run growMsvc [.line 2 false, .apply false 0 1 0 true] {} = some (b, l)) ∧ equals a b = true ∧ a.faces ≠ b.faces :=
  ⟨_, _, ⟨_, rfl⟩, ⟨_, rfl⟩, by decide +kernel, by decide +kernel⟩

/-- `dir foo`: `dir` is a command; the history expansion `foo` is coloured over a colour of a script. -/
def exOps : List Op :=
  [.apply true 0 3 99 true, .apply true 4 3 111 true, .ensure (bs "0;31"), .apply false 4 2 128 true, .ensure (bs "0;32"),
    .apply false 4 30 129 false, .ensure (bs "0;31"), .apply false 6 4294967295 33 true]

example : (run growMsvc (.line 7 false :: (exOps ++ [.finish])) {}).map (fun r => (r.1.faces, r.2)) =
    some ([99, 99, 99, 32, 128, 128, 33], [(bs "0;31", 128), (bs "0;32", 129), (bs "0;31", 128)]) := by decide +kernel
example : Painted 4 (paints false exOps) 128 := by
  have e : paints false exOps = [] ++ (⟨4, 2, 128, true⟩ : Paint) :: [⟨4, 30, 129, false⟩, ⟨6, 4294967295, 33, true⟩] := rfl
  rw [e]
  exact .overwrite (a := ⟨4, 2, 128, true⟩) (by decide) rfl (by decide) (by
    intro b hb hc
    simp only [List.mem_cons, List.not_mem_nil, or_false] at hb
    rcases hb with rfl | rfl
    · rfl
    · exact absurd hc (by decide))
example : Painted 4 (paints true exOps) 111 := by
  have e : paints true exOps = [⟨0, 3, 99, true⟩] ++ (⟨4, 3, 111, true⟩ : Paint) :: [] := rfl
  rw [e]
  exact .first (a := ⟨4, 3, 111, true⟩) (by simp [Paint.Covers]) (by decide) (by decide) (by simp)
example : ∀ op ∈ exOps, op ≠ .ensure [] ∧ Drawing op := by
  intro op h
  simp only [exOps, List.mem_cons, List.not_mem_nil, or_false] at h
  rcases h with rfl | rfl | rfl | rfl | rfl | rfl | rfl | rfl <;> simp [Drawing, bs]

/-- The colour number 101 is refused, and the first one keeps its face. -/
example : (run growMsvc ((List.range 102).map (fun i => .ensure [49, 148 + i]) ++ [.ensure [49, 148]]) {}).map
    (fun r => (r.2.drop 99, r.1.defs.length)) =
    some ([([49, 247], 227), ([49, 248], 0), ([49, 249], 0), ([49, 148], 128)], 100) := by decide +kernel

example : (run growMsvc [.line 3 true, .classify 0 1 99 true true, .classify 1 0 97 false true] {}).map (fun r => getTestInfos r.1) =
    some (some [{}, ⟨true, 3⟩, ⟨false, 5⟩]) := by decide +kernel
example : (((run growMsvc [.line 4 true] {}).bind fun r => applyColor growMsvc 2 (-1) (bs "7") true r.1).map fun s => s.faces) =
    some [32, 128, 128, 128] := by decide +kernel
example : (((run growMsvc [.line 4 true] {}).bind fun r => luaClassify ⟨[(0, 1), (2, 9)], 0, 0, 0, true⟩ 2 (bs "f") true r.1).map
    fun s => (s.1.words, getTestInfos s.1, s.2)) = some ([32, 32, 102, 102], some [{}, ⟨false, 6⟩], true) := by decide +kernel
/-- The command word with an argmatcher. -/
example : (((run growMsvc [.line 4 true] {}).bind fun r => luaClassify ⟨[(0, 1), (2, 9)], 0, 0, 0, true⟩ 1 (bs "mc") true r.1).map
    fun s => (s.1.words, getTestInfos s.1, s.2)) = some ([109, 32, 32, 32], some [⟨true, 3⟩], true) := by decide +kernel

end Clink.WordClass
