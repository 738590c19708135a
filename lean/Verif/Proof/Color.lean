import Verif.Proof.Tokeniser
import Verif.Spec.Color

/-! Descriptions of colours: words and what they do to the state. -/

namespace Clink.Color

open Spec

theorem like_iff {a b : List Nat} (hb : ∀ y ∈ b, 97 ≤ y ∧ y ≤ 122) : Like a b ↔ a.map lower = b := by
  induction a generalizing b with
  | nil => cases b <;> simp [Like]
  | cons x a ih =>
    cases b with
    | nil => simp [Like]
    | cons y b =>
      have hy := hb y (by simp)
      have hx : (x = y ∨ (97 ≤ y ∧ y ≤ 122 ∧ x + 32 = y)) ↔ lower x = y := by
        unfold lower
        split <;> omega
      have ih := ih fun z hz => hb z (List.mem_cons_of_mem _ hz)
      rw [List.map_cons, List.cons.injEq, ← hx, ← ih]
      constructor
      · rintro ⟨h1, h2⟩
        refine ⟨h2 0 x y rfl rfl, by simpa using h1, fun i u v hu hv => h2 (i + 1) u v hu hv⟩
      · rintro ⟨h1, h2, h3⟩
        refine ⟨by simpa using h2, fun i u v hu hv => ?_⟩
        cases i with
        | zero => cases hu; cases hv; exact h1
        | succ i => exact h3 i u v hu hv

theorem starts_iff {w b : List Nat} (hl : b.length = 3) (hb : ∀ y ∈ b, 97 ≤ y ∧ y ≤ 122) : Starts w b ↔ (w.take 3).map lower = b := by
  unfold Starts
  rw [hl]
  exact like_iff hb

/-- The kind of a word. -/
def kindOf (w : List Nat) : Option Kind :=
  if iequal w (bs "on") then some .on
  else if imatch3 w (bs "normal") || imatch3 w (bs "default") then some .default
  else if imatch3 w (bs "bold") || imatch3 w (bs "nobold") || imatch3 w (bs "dim") then some (.bold (imatch3 w (bs "bold")))
  else if imatch3 w (bs "bright") then some .bright
  else if imatch3 w (bs "underline") || imatch3 w (bs "nounderline") then some (.underline (imatch3 w (bs "underline")))
  else if imatch3 w (bs "italic") then some .italic
  else if imatch3 w (bs "reverse") then some .reverse
  else
    match parseHex w with
    | some h => some (.rgb (h / 65536) (h / 256 % 256) (h % 256))
    | none => (names.findIdx? (imatch3 w)).map .name

/-- One kind. -/
def stepK (s : St) : Kind → Option St
  | .on =>
    if s.onBg then none
    else some { s with fg := if !s.hex && decide (0 < s.bright) then s.fg + 8 else s.fg, onBg := true, bright := -1, sawDefault := false }
  | .default => if 0 ≤ s.color then none else if s.sawDefault then none else some { (s.setColor (-1)).setHex false with sawDefault := true }
  | .bold b => if s.onBg then none else if 0 ≤ s.bold then none else some { s with bold := if b then 1 else 0 }
  | .bright => if s.hex then none else if 0 ≤ s.bright then none else some { s with bright := 1 }
  | .underline b => if s.onBg then none else if 0 ≤ s.underline then none else some { s with underline := if b then 1 else 0 }
  | .italic => if s.onBg then none else if s.italic then none else some { s with italic := true }
  | .reverse => if s.reverse then none else some { s with reverse := true }
  | .rgb r g b => if 0 ≤ s.color then none else if 0 ≤ s.bright then none else some ((s.setColor (r * 65536 + g * 256 + b : Nat)).setHex true)
  | .name n => if 0 ≤ s.color then none else some (s.setColor n)

theorem step_eq (s : St) (w : List Nat) : step s w = (kindOf w).bind (stepK s) := by
  unfold step kindOf
  split
  · rfl
  split
  · rfl
  split
  · rfl
  split
  · rfl
  split
  · rfl
  split
  · rfl
  split
  · rfl
  cases parseHex w with
  | some h =>
    simp only [Option.bind_some, stepK]
    rw [show h / 65536 * 65536 + h / 256 % 256 * 256 + h % 256 = h by omega]
  | none =>
    cases names.findIdx? (imatch3 w) with
    | some i => rfl
    | none => rfl

theorem hexDigit_iff {c x : Nat} : hexDigit c = some x ↔ Hex c x := by
  unfold hexDigit
  constructor
  · intro h
    split at h
    · cases h; exact .digit ‹_›
    split at h
    · cases h; rw [Nat.add_comm]; exact .lower ‹_›
    split at h
    · cases h; rw [Nat.add_comm]; exact .upper ‹_›
    · cases h
  · intro h
    cases h with
    | digit h => rw [if_pos h]
    | upper h => rw [if_neg (by omega), if_neg (by omega), if_pos h, Nat.add_comm]
    | lower h => rw [if_neg (by omega), if_pos h, Nat.add_comm]

theorem hex_lt {c x : Nat} (h : Hex c x) : x < 16 := by
  cases h <;> omega

theorem rgb_split {h a b c : Nat} (hb : b < 256) (hc : c < 256) (e : h = a * 65536 + b * 256 + c) :
    h / 65536 = a ∧ h / 256 % 256 = b ∧ h % 256 = c := by
  have h1 : h / 256 = a * 256 + b := by omega
  refine ⟨by omega, ?_, by omega⟩
  rw [h1]
  omega

theorem parseHex_some {w : List Nat} {h : Nat} (hw : parseHex w = some h) :
    Means w (.rgb (h / 65536) (h / 256 % 256) (h % 256)) := by
  unfold parseHex at hw
  split at hw
  · rename_i l
    split at hw
    · cases hw
    · rename_i hl
      match l, hl with
      | [a, b, c], _ =>
        simp only [List.length_cons, List.length_nil, hexLoop] at hw
        cases ha : hexDigit a with
        | none => simp [ha] at hw
        | some x =>
        cases hb : hexDigit b with
        | none => simp [ha, hb] at hw
        | some y =>
        cases hc : hexDigit c with
        | none => simp [ha, hb, hc] at hw
        | some z =>
        simp [ha, hb, hc] at hw
        have ha := hexDigit_iff.1 ha
        have hb := hexDigit_iff.1 hb
        have hc := hexDigit_iff.1 hc
        have := hex_lt ha
        have := hex_lt hb
        have := hex_lt hc
        obtain ⟨e1, e2, e3⟩ := rgb_split (h := h) (a := 17 * x) (b := 17 * y) (c := 17 * z) (by omega) (by omega) (by omega)
        rw [e1, e2, e3]
        exact .short ha hb hc
      | [a, b, c, d, e, f], _ =>
        simp only [List.length_cons, List.length_nil, hexLoop] at hw
        cases ha : hexDigit a with
        | none => simp [ha] at hw
        | some x =>
        cases hb : hexDigit b with
        | none => simp [ha, hb] at hw
        | some y =>
        cases hc : hexDigit c with
        | none => simp [ha, hb, hc] at hw
        | some z =>
        cases hd : hexDigit d with
        | none => simp [ha, hb, hc, hd] at hw
        | some u =>
        cases he : hexDigit e with
        | none => simp [ha, hb, hc, hd, he] at hw
        | some v =>
        cases hf : hexDigit f with
        | none => simp [ha, hb, hc, hd, he, hf] at hw
        | some t =>
        simp [ha, hb, hc, hd, he, hf] at hw
        have ha := hexDigit_iff.1 ha
        have hb := hexDigit_iff.1 hb
        have hc := hexDigit_iff.1 hc
        have hd := hexDigit_iff.1 hd
        have he := hexDigit_iff.1 he
        have hf := hexDigit_iff.1 hf
        have := hex_lt ha
        have := hex_lt hb
        have := hex_lt hc
        have := hex_lt hd
        have := hex_lt he
        have := hex_lt hf
        rw [show h / 65536 = 16 * x + y by omega, show h / 256 % 256 = 16 * z + u by omega, show h % 256 = 16 * v + t by omega]
        exact .long ha hb hc hd he hf
      | [], hl => simp at hl
      | [_], hl => simp at hl
      | [_, _], hl => simp at hl
      | [_, _, _, _], hl => simp at hl
      | [_, _, _, _, _], hl => simp at hl
      | _ :: _ :: _ :: _ :: _ :: _ :: _ :: _, hl => simp at hl
  · cases hw

theorem imatch3_iff {w : List Nat} {s b : List Nat} (hs : s.take 3 = b) (hl : b.length = 3) (hb : ∀ y ∈ b, 97 ≤ y ∧ y ≤ 122) :
    imatch3 w s = true ↔ Starts w b := by
  rw [starts_iff hl hb, ← hs]
  simp [imatch3]

theorem kindOf_means {w : List Nat} {k : Kind} (h : kindOf w = some k) : Means w k := by
  have d : ∀ (s : List Nat) {b : List Nat}, s.take 3 = b → b.length = 3 → (∀ y ∈ b, 97 ≤ y ∧ y ≤ 122) → imatch3 w s = true → Starts w b :=
    fun s b h1 h2 h3 h4 => (imatch3_iff h1 h2 h3).1 h4
  unfold kindOf at h
  split at h
  · rename_i e
    cases h
    exact .on ((like_iff (by decide)).2 (by simpa [iequal] using e))
  split at h
  · rename_i e
    cases h
    rcases Bool.or_eq_true _ _ ▸ e with e | e
    · exact .normal (d _ rfl rfl (by decide) e)
    · exact .default (d _ rfl rfl (by decide) e)
  split at h
  · rename_i e
    cases h
    cases hb : imatch3 w (bs "bold") with
    | true => exact .bold (d _ rfl rfl (by decide) hb)
    | false =>
      rw [hb, Bool.false_or, Bool.or_eq_true] at e
      rcases e with e | e
      · exact .nobold (d _ rfl rfl (by decide) e)
      · exact .dim (d _ rfl rfl (by decide) e)
  split at h
  · cases h; exact .bright (d _ rfl rfl (by decide) ‹_›)
  split at h
  · rename_i e
    cases h
    cases hb : imatch3 w (bs "underline") with
    | true => exact .underline (d _ rfl rfl (by decide) hb)
    | false =>
      rw [hb, Bool.false_or] at e
      exact .nounderline (d _ rfl rfl (by decide) e)
  split at h
  · cases h; exact .italic (d _ rfl rfl (by decide) ‹_›)
  split at h
  · cases h; exact .reverse (d _ rfl rfl (by decide) ‹_›)
  split at h
  · rename_i x hx
    cases h
    exact parseHex_some hx
  · obtain ⟨n, hn, e⟩ := Option.map_eq_some_iff.1 h
    subst e
    obtain ⟨hlt, hm, -⟩ := List.findIdx?_eq_some_iff_getElem.1 hn
    have hlt' : n < 8 := hlt
    match n, hlt' with
    | 0, _ => exact .name (s := bs "bla") rfl (d _ rfl rfl (by decide) hm)
    | 1, _ => exact .name (s := bs "red") rfl (d _ rfl rfl (by decide) hm)
    | 2, _ => exact .name (s := bs "gre") rfl (d _ rfl rfl (by decide) hm)
    | 3, _ => exact .name (s := bs "yel") rfl (d _ rfl rfl (by decide) hm)
    | 4, _ => exact .name (s := bs "blu") rfl (d _ rfl rfl (by decide) hm)
    | 5, _ => exact .name (s := bs "mag") rfl (d _ rfl rfl (by decide) hm)
    | 6, _ => exact .name (s := bs "cya") rfl (d _ rfl rfl (by decide) hm)
    | 7, _ => exact .name (s := bs "whi") rfl (d _ rfl rfl (by decide) hm)

theorem iequal_on {w b : List Nat} (hb : b.length = 3) (h : (w.take 3).map lower = b) : iequal w (bs "on") = false := by
  unfold iequal
  refine beq_eq_false_iff_ne.2 fun e => ?_
  have h1 := congrArg List.length h
  have h2 := congrArg List.length e
  simp only [List.length_map, List.length_take, hb] at h1 h2
  have : (bs "on").length = 2 := rfl
  omega

/-- The word as its first three letters determine it. -/
def kind3 (b : List Nat) (hex : Option Nat) : Option Kind :=
  let m := fun s : List Nat => b == s.take 3
  if m (bs "normal") || m (bs "default") then some .default
  else if m (bs "bold") || m (bs "nobold") || m (bs "dim") then some (.bold (m (bs "bold")))
  else if m (bs "bright") then some .bright
  else if m (bs "underline") || m (bs "nounderline") then some (.underline (m (bs "underline")))
  else if m (bs "italic") then some .italic
  else if m (bs "reverse") then some .reverse
  else
    match hex with
    | some h => some (.rgb (h / 65536) (h / 256 % 256) (h % 256))
    | none => (names.findIdx? m).map .name

theorem kindOf_3 {w b : List Nat} (hb : b.length = 3) (h : (w.take 3).map lower = b) : kindOf w = kind3 b (parseHex w) := by
  unfold kindOf
  rw [iequal_on hb h]
  have : imatch3 w = fun s => b == s.take 3 := by
    funext s
    unfold imatch3
    rw [h]
  rw [this]
  rfl

theorem parseHex_none {w b : List Nat} (h : (w.take 3).map lower = b) (hb : b.head? ≠ some 35) : parseHex w = none := by
  unfold parseHex
  split
  · exact absurd (by rw [← h]; rfl) hb
  · rfl

theorem kindOf_starts {w b : List Nat} {k : Kind} (hb : b.length = 3) (hl : ∀ y ∈ b, 97 ≤ y ∧ y ≤ 122) (hs : Starts w b) (hk : kind3 b none = some k) :
    kindOf w = some k := by
  have h := (starts_iff hb hl).1 hs
  rw [kindOf_3 hb h, parseHex_none h, hk]
  cases b with
  | nil => simp
  | cons y b =>
    have := hl y (by simp)
    simp
    omega

theorem means_kindOf {w : List Nat} {k : Kind} (h : Means w k) : kindOf w = some k := by
  cases h with
  | on h =>
    have := (like_iff (by decide)).1 h
    unfold kindOf
    rw [if_pos (by simpa [iequal] using this)]
  | normal h => exact kindOf_starts rfl (by decide) h (by decide)
  | default h => exact kindOf_starts rfl (by decide) h (by decide)
  | bright h => exact kindOf_starts rfl (by decide) h (by decide)
  | italic h => exact kindOf_starts rfl (by decide) h (by decide)
  | reverse h => exact kindOf_starts rfl (by decide) h (by decide)
  | bold h => exact kindOf_starts rfl (by decide) h (by decide)
  | nobold h => exact kindOf_starts rfl (by decide) h (by decide)
  | dim h => exact kindOf_starts rfl (by decide) h (by decide)
  | underline h => exact kindOf_starts rfl (by decide) h (by decide)
  | nounderline h => exact kindOf_starts rfl (by decide) h (by decide)
  | @short a b c x y z ha hb hc =>
    have e : parseHex [35, a, b, c] = some (17 * x * 65536 + 17 * y * 256 + 17 * z) := by
      simp [parseHex, hexLoop, hexDigit_iff.2 ha, hexDigit_iff.2 hb, hexDigit_iff.2 hc]
      omega
    have := hex_lt ha
    have := hex_lt hb
    have := hex_lt hc
    rw [kindOf_3 (b := [35, lower a, lower b]) rfl rfl, e]
    obtain ⟨e1, e2, e3⟩ := rgb_split (a := 17 * x) (b := 17 * y) (c := 17 * z) (by omega) (by omega) rfl
    unfold kind3
    simp [bs]
    exact ⟨e1, e2, e3⟩
  | @long a b c d e f x y z u v t ha hb hc hd he hf =>
    have e : parseHex [35, a, b, c, d, e, f] = some ((16 * x + y) * 65536 + (16 * z + u) * 256 + (16 * v + t)) := by
      simp [parseHex, hexLoop, hexDigit_iff.2 ha, hexDigit_iff.2 hb, hexDigit_iff.2 hc, hexDigit_iff.2 hd, hexDigit_iff.2 he, hexDigit_iff.2 hf]
      omega
    have := hex_lt ha
    have := hex_lt hb
    have := hex_lt hc
    have := hex_lt hd
    have := hex_lt he
    have := hex_lt hf
    rw [kindOf_3 (b := [35, lower a, lower b]) rfl rfl, e]
    unfold kind3
    simp [bs]
    omega
  | @name _ n s hn h =>
    have : n < 8 := Classical.byContradiction fun hc => by
      rw [List.getElem?_eq_none (by simp; omega)] at hn
      cases hn
    match n, this with
    | 0, _ => cases hn; exact kindOf_starts rfl (by decide) h (by decide)
    | 1, _ => cases hn; exact kindOf_starts rfl (by decide) h (by decide)
    | 2, _ => cases hn; exact kindOf_starts rfl (by decide) h (by decide)
    | 3, _ => cases hn; exact kindOf_starts rfl (by decide) h (by decide)
    | 4, _ => cases hn; exact kindOf_starts rfl (by decide) h (by decide)
    | 5, _ => cases hn; exact kindOf_starts rfl (by decide) h (by decide)
    | 6, _ => cases hn; exact kindOf_starts rfl (by decide) h (by decide)
    | 7, _ => cases hn; exact kindOf_starts rfl (by decide) h (by decide)

/-- Numbers of colours are in range. -/
def Ok : Kind → Prop
  | .rgb r g b => r < 256 ∧ g < 256 ∧ b < 256
  | .name n => n < 8
  | _ => True

theorem means_ok {w : List Nat} {k : Kind} (h : Means w k) : Ok k := by
  cases h with
  | short ha hb hc =>
    have := hex_lt ha
    have := hex_lt hb
    have := hex_lt hc
    show _ ∧ _ ∧ _
    omega
  | long ha hb hc hd he hf =>
    have := hex_lt ha
    have := hex_lt hb
    have := hex_lt hc
    have := hex_lt hd
    have := hex_lt he
    have := hex_lt hf
    show _ ∧ _ ∧ _
    omega
  | @name _ n s hn h =>
    exact Classical.byContradiction fun hc => by
      have hc : ¬ n < 8 := hc
      rw [List.getElem?_eq_none (by simp; omega)] at hn
      cases hn
  | _ => trivial

def stepsK (s : St) : List Kind → Option St
  | [] => some s
  | k :: ks => (stepK s k).bind fun s => stepsK s ks

theorem steps_meanAll {ws : List (List Nat)} {ks : List Kind} (h : MeanAll ws ks) (s : St) : steps s ws = stepsK s ks := by
  induction h generalizing s with
  | nil => rfl
  | cons h t ih =>
    rw [steps, stepsK, step_eq, means_kindOf h, Option.bind_some]
    congr 1
    funext s
    exact ih s

theorem steps_some {ws : List (List Nat)} {s s' : St} (h : steps s ws = some s') : ∃ ks, MeanAll ws ks := by
  induction ws generalizing s with
  | nil => exact ⟨[], .nil⟩
  | cons w ws ih =>
    rw [steps, step_eq] at h
    obtain ⟨s1, h1, h2⟩ := Option.bind_eq_some_iff.1 h
    obtain ⟨k, hk, -⟩ := Option.bind_eq_some_iff.1 h1
    obtain ⟨ks, hks⟩ := ih h2
    exact ⟨k :: ks, .cons (kindOf_means hk) hks⟩

theorem meanAll_ok {ws : List (List Nat)} {ks : List Kind} (h : MeanAll ws ks) : ∀ k ∈ ks, Ok k := by
  induction h with
  | nil => simp
  | cons h t ih =>
    intro k hk
    rcases List.mem_cons.1 hk with rfl | hk
    · exact means_ok h
    · exact ih k hk

theorem stepsK_append (s : St) (a b : List Kind) : stepsK s (a ++ b) = (stepsK s a).bind fun s => stepsK s b := by
  induction a generalizing s with
  | nil => rfl
  | cons k a ih =>
    rw [List.cons_append, stepsK, stepsK]
    cases stepK s k with
    | none => rfl
    | some s => exact ih s

end Clink.Color
