import Verif.Proof.Enum

/-! C24: settings with options. -/

namespace Clink.Settings

open Spec Color.Spec
open Color (bs)

/-- What is selected: the first option that is picked by its number or by its name. -/
theorem C24_selects {env : Env} (ok : AtoiOk env.atoi) {options value : List Nat} {names : List (List Nat)} (h : Options options names)
    (hlen : names.length < 2147483648) (v : Val) :
    parseEnum env options value = some v ↔ ∃ k : Nat, v = .num k ∧ Picks env.lower names value k ∧ ∀ j < k, ¬ Picks env.lower names value j := by
  have hp : ∀ j < names.length, (byInt env value = j ∨ ∃ w, names[j]? = some w ∧ Same env.lower w value) ↔ Picks env.lower names value j := by
    intro j hj
    rw [byInt_iff ok (by omega)]
    unfold Picks
    constructor
    · rintro (hd | ⟨w, h1, h2⟩)
      · exact ⟨names[j], List.getElem?_eq_getElem hj, .inl hd⟩
      · exact ⟨w, h1, .inr h2⟩
    · rintro ⟨w, h1, h2 | h2⟩
      · exact .inl h2
      · exact .inr ⟨w, h1, h2⟩
  have hnot : ∀ j < names.length, (byInt env value ≠ j ∧ ∀ w, names[j]? = some w → ¬ Same env.lower w value) → ¬ Picks env.lower names value j := by
    intro j hj ⟨h1, h2⟩ h3
    rcases (hp j hj).2 h3 with h4 | ⟨w, h4, h5⟩
    · exact h1 h4
    · exact h2 w h4 h5
  unfold parseEnum
  rcases enumLoop_spec env value h 0 (byInt env value) with ⟨k, h1, h2, h3, h4⟩ | ⟨h1, h2⟩
  · have hk := (hp k h2).1 h3
    have hj : ∀ j < k, ¬ Picks env.lower names value j := fun j hj => hnot j (by omega) (h4 j hj)
    rw [h1]
    simp only [Nat.zero_add, Option.some.injEq]
    constructor
    · rintro rfl
      exact ⟨k, rfl, hk, hj⟩
    · rintro ⟨k', rfl, g1, g2⟩
      congr 1
      rcases Nat.lt_trichotomy k k' with hlt | rfl | hgt
      · exact absurd hk (g2 k hlt)
      · rfl
      · exact absurd g1 (hj k' hgt)
  · rw [h1]
    constructor
    · intro h; cases h
    · rintro ⟨k, -, ⟨w, g1, g2⟩, -⟩
      exact absurd ⟨w, g1, g2⟩ (hnot k ((List.getElem?_eq_some_iff.1 g1).1) (h2 k ((List.getElem?_eq_some_iff.1 g1).1)))

/-- Anything else is refused, and the setting stays as it was. -/
theorem C24_refused {env : Env} (ok : AtoiOk env.atoi) {options value : List Nat} {names : List (List Nat)} (h : Options options names)
    (hlen : names.length < 2147483648) (hno : ∀ k, ¬ Picks env.lower names value k) (s : Setting) {d : Int} (hs : s.ty = .enum options d) :
    s.set env value = (s, false) := by
  have : parseEnum env options value = none := by
    cases hp : parseEnum env options value with
    | none => rfl
    | some v =>
      obtain ⟨k, -, h1, -⟩ := (C24_selects ok h hlen v).1 hp
      exact absurd h1 (hno k)
  unfold Setting.set
  rw [hs]
  unfold parse
  simp only [this]

/-- The name that is shown for a value. -/
theorem C24_name {options : List Nat} {names : List (List Nat)} (h : Options options names) (i : Int) :
    optionName options i = if 0 ≤ i then names.getD i.toNat [] else [] := by
  unfold optionName
  by_cases hi : i < 0
  · rw [if_pos hi, if_neg (Int.not_le.2 hi)]
  · rw [if_neg hi, if_pos (Int.not_lt.1 hi)]
    obtain ⟨h1, h2⟩ := repeat_nextOption h i.toNat
    show (if Nat.repeat nextOption i.toNat options = [] then [] else optionHere (Nat.repeat nextOption i.toNat options)) = _
    by_cases hk : i.toNat < names.length
    · obtain ⟨v, w, g1, g2, g3, g4⟩ := h1 hk
      rw [g1, if_neg g2, g4, List.getD_eq_getElem?_getD, g3]
      rfl
    · rw [h2 (by omega), if_pos rfl, List.getD_eq_getElem?_getD, List.getElem?_eq_none (by omega)]
      rfl

/-- The name that is shown for a value selects the value, if names differ and no name is the number of another option. -/
theorem C24_round {env : Env} (ok : AtoiOk env.atoi) {options : List Nat} {names : List (List Nat)} (h : Options options names)
    (hlen : names.length < 2147483648) (hdiff : ∀ (i j : Nat) (a b : List Nat), names[i]? = some a → names[j]? = some b → Same env.lower a b → i = j)
    (hnum : ∀ (i j : Nat) (a : List Nat), names[i]? = some a → Decimal a j → j < names.length → i = j)
    (k : Nat) (name : List Nat) (hk : names[k]? = some name) (hutf : Utf8 name) :
    optionName options k = name ∧ parseEnum env options (optionName options k) = some (.num k) := by
  have hn : optionName options k = name := by
    rw [C24_name h, if_pos (by omega)]
    simp [List.getD_eq_getElem?_getD, hk]
  refine ⟨hn, ?_⟩
  rw [hn]
  refine (C24_selects ok h hlen _).2 ⟨k, rfl, ⟨name, hk, .inr (same_refl _ hutf)⟩, ?_⟩
  rintro j hj ⟨w, h1, h2 | h2⟩
  · have := hnum k j name hk h2 (List.getElem?_eq_some_iff.1 h1).1
    omega
  · have := hdiff j k w name h1 hk h2
    omega

def sampleNum (l : List Nat) : Nat := (l.takeWhile isDigit).foldl (fun x c => 10 * x + (c - 48)) 0

/-- `atoi` as it is in the runtime library, for the examples. -/
def sampleAtoi (s : List Nat) : Int :=
  if s.head? = some 45 then (if sampleNum s.tail < 2147483648 then -(sampleNum s.tail : Int) else -2147483648)
  else if sampleNum s < 2147483648 then (sampleNum s : Int) else 2147483647

def sampleEnv : Env := ⟨Color.lower, sampleAtoi⟩

theorem sampleAtoi_ok : AtoiOk sampleAtoi := by
  have key : ∀ {w : List Nat} {n : Nat} {rest : List Nat}, Decimal w n → (∀ c, rest.head? = some c → ¬ (48 ≤ c ∧ c ≤ 57)) →
      sampleNum (w ++ rest) = n := by
    intro w n rest h hr
    unfold sampleNum
    rw [List.takeWhile_append_of_pos (fun c hc => by have := h.2.1 c hc; simp [isDigit]; omega)]
    have : rest.takeWhile isDigit = [] := by
      cases rest with
      | nil => rfl
      | cons c rest =>
        rw [List.takeWhile_cons_of_neg]
        intro hc
        simp [isDigit] at hc
        exact hr c rfl hc
    rw [this, List.append_nil]
    exact h.2.2
  refine ⟨fun w => ?_, ?_, ?_⟩
  · unfold sampleAtoi
    split <;> split <;> omega
  · intro w n rest h hr
    obtain ⟨c, w', rfl⟩ := List.exists_cons_of_ne_nil h.1
    have := key h hr
    have hc := h.2.1 c (by simp)
    unfold sampleAtoi
    rw [if_neg (by simp; omega), this]
  · intro w n rest h hr
    unfold sampleAtoi
    rw [if_pos (by simp), List.tail_cons, key h hr]

/-- A prefix of a name does not select the option. -/
theorem C24_prefix : ∃ options names, Options options names ∧ parseEnum sampleEnv options (bs "of") = none ∧ names = [bs "off", bs "on"] :=
  ⟨bs "off,on", _, .more (w := bs "off") (by decide) (.last (w := bs "on") (by decide) (by decide)), by decide +kernel, rfl⟩

/-- A comma at the end belongs to the last option, which then cannot be selected by its name. -/
theorem C24_comma : optionName (bs "off,on,") 1 = bs "on," ∧ parseEnum sampleEnv (bs "off,on,") (bs "on") = none := by
  refine ⟨?_, ?_⟩ <;> decide +kernel

/-! ### Examples -/

example : parseEnum sampleEnv (bs "off,on,auto") (bs "AUTO") = some (.num 2) ∧ parseEnum sampleEnv (bs "off,on,auto") (bs "01") = some (.num 1) ∧
    parseEnum sampleEnv (bs "off,on,auto") (bs "3") = none ∧ parseEnum sampleEnv (bs "off,on,auto") (bs "1x") = none ∧
    parseEnum sampleEnv (bs "off,on,auto") (bs "99999999999") = none := by
  refine ⟨?_, ?_, ?_, ?_, ?_⟩ <;> decide +kernel

/-- A name that is a number: the first option that is picked counts. -/
example : parseEnum sampleEnv (bs "x,y,1") (bs "1") = some (.num 1) ∧ parseEnum sampleEnv (bs "1,y") (bs "1") = some (.num 0) := by
  refine ⟨?_, ?_⟩ <;> decide +kernel

example : Picks sampleEnv.lower [bs "off", bs "on"] (bs "1") 1 := ⟨bs "on", rfl, .inl (by unfold Decimal; decide)⟩

/-- Of core/test/settings.cpp. -/
example : parseEnum sampleEnv (bs "zero,one,two") (bs "zero") = some (.num 0) ∧ parseEnum sampleEnv (bs "zero,one,two") (bs "two") = some (.num 2) ∧
    optionName (bs "zero,one,two") 2 = bs "two" ∧ parseEnum sampleEnv (bs "zero,one,two") (bs "abc") = none ∧
    parseEnum sampleEnv (bs "zero,one,two") (bs "0abc") = none ∧ parseEnum sampleEnv (bs "zero,one,two") (bs "1") = some (.num 1) := by
  refine ⟨?_, ?_, ?_, ?_, ?_, ?_⟩ <;> decide +kernel

end Clink.Settings
