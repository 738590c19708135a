import Verif.Proof.SettingsText
import Verif.Props.Color
import Verif.Props.Enum

/-! Values of settings as they are written. -/

namespace Clink.Settings

open Spec
open Color (bs)
open Color.Spec (Decimal Like)

theorem like_same {a b : List Nat} (hb : ∀ y ∈ b, ¬ (65 ≤ y ∧ y ≤ 90)) : Like a b ↔ same a b = true := by
  have hl : b.map Color.lower = b := by
    rw [List.map_congr_left (g := id), List.map_id]
    intro y hy
    have := hb y hy
    unfold Color.lower
    rw [if_neg this]
    rfl
  unfold same
  rw [hl, beq_iff_eq]
  clear hl
  induction a generalizing b with
  | nil => cases b <;> simp [Like]
  | cons x a ih =>
    cases b with
    | nil => simp [Like]
    | cons y b =>
      have hy := hb y (by simp)
      have ih' : Like a b ↔ a.map Color.lower = b := ih (b := b) fun y hy => hb y (List.mem_cons_of_mem _ hy)
      rw [List.map_cons, List.cons.injEq, ← ih']
      have hxy : (x = y ∨ (97 ≤ y ∧ y ≤ 122 ∧ x + 32 = y)) ↔ Color.lower x = y := by
        unfold Color.lower
        split <;> omega
      rw [← hxy]
      unfold Like
      constructor
      · rintro ⟨h1, h2⟩
        exact ⟨h2 0 x y rfl rfl, by simpa using h1, fun i u v hu hv => h2 (i + 1) u v (by simpa using hu) (by simpa using hv)⟩
      · rintro ⟨h1, h2, h3⟩
        refine ⟨by simpa using h2, ?_⟩
        rintro (_ | i) u v hu hv
        · cases hu; cases hv; exact h1
        · exact h3 i u v (by simpa using hu) (by simpa using hv)

theorem sameName_iff {a b : List Nat} : SameName a b ↔ same a b = true := by
  unfold same
  rw [beq_iff_eq]
  constructor
  · rintro ⟨h1, h2⟩
    apply List.ext_getElem?
    intro i
    rw [List.getElem?_map, List.getElem?_map]
    by_cases hi : i < a.length
    · have hj : i < b.length := by omega
      rw [List.getElem?_eq_getElem hi, List.getElem?_eq_getElem hj]
      exact congrArg some (h2 i _ _ (List.getElem?_eq_getElem hi) (List.getElem?_eq_getElem hj))
    · rw [List.getElem?_eq_none (by omega), List.getElem?_eq_none (by omega)]
  · intro h
    refine ⟨by simpa using congrArg List.length h, fun i x y hx hy => ?_⟩
    have := congrArg (·[i]?) h
    simp only [List.getElem?_map, hx, hy, Option.map_some, Option.some.injEq] at this
    exact this

theorem sameName_refl (a : List Nat) : SameName a a := sameName_iff.2 (by unfold same; simp)

/-! ### Colours -/

/-- Printable text without a blank at its beginning. -/
def Plain (l : List Nat) : Prop := (∀ c ∈ l, 32 ≤ c ∧ c < 128) ∧ l.head? ≠ some 32

theorem plain_append {a b : List Nat} (ha : Plain a) (hb : Plain b) : Plain (a ++ b) := by
  refine ⟨fun c hc => (List.mem_append.1 hc).elim (ha.1 c) (hb.1 c), ?_⟩
  cases a with
  | nil => exact hb.2
  | cons c a => exact ha.2

theorem plain_prefix {a b : List Nat} (h : Plain b) (hp : a <+: b) : Plain a := by
  obtain ⟨t, rfl⟩ := hp
  refine ⟨fun c hc => h.1 c (List.mem_append_left _ hc), ?_⟩
  cases a with
  | nil => simp
  | cons c a => exact h.2

theorem plain_value {l : List Nat} (h : Plain l) : ValueOk l := by
  refine ⟨lineOk_ascii h.1, fun c hc hs => h.2 ?_⟩
  have : c ∈ l := List.mem_of_head? hc
  have := h.1 c this
  unfold Space at hs
  rw [hc]
  congr 1
  omega

instance (l : List Nat) : Decidable (Plain l) := by unfold Plain; infer_instance

theorem plain_colorName {x : Nat} (h : (30 ≤ x ∧ x < 38) ∨ (90 ≤ x ∧ x < 98)) : Plain (Color.colorName x) := by
  have : ∀ x < 98, ((30 ≤ x ∧ x < 38) ∨ (90 ≤ x ∧ x < 98)) → Plain (Color.colorName x) := by decide +kernel
  exact this x (by omega) h

theorem of_ite {α : Type} {P : Prop} [Decidable P] {a b c : α} (h : (if P then a else b) = c) : (P ∧ a = c) ∨ (¬ P ∧ b = c) := by
  by_cases hp : P
  · rw [if_pos hp] at h; exact .inl ⟨hp, h⟩
  · rw [if_neg hp] at h; exact .inr ⟨hp, h⟩

theorem mem_ite {P : Prop} [Decidable P] {a b : List Nat} {c : Nat} (h : c ∈ if P then a else b) : c ∈ a ∨ c ∈ b := by
  by_cases hp : P
  · rw [if_pos hp] at h; exact .inl h
  · rw [if_neg hp] at h; exact .inr h

theorem formatLoop_plain (e : Nat) (any : Bool) (out : List Nat) (parts : List (List Nat)) (out' : List Nat) (ho : Plain out)
    (h : Color.formatLoop true e any out parts = some (some out')) : Plain out' := by
  induction parts generalizing e any out with
  | nil =>
    rw [Color.formatLoop] at h
    cases h
    exact ho
  | cons p parts ih =>
    cases hp : Color.int p with
    | none => rw [Color.formatLoop, hp] at h; cases h
    | some z =>
      by_cases hz : z < 0
      · rw [Color.formatLoop_neg hp hz] at h; cases h
      · obtain ⟨x, rfl⟩ := Int.eq_ofNat_of_zero_le (Int.not_lt.1 hz)
        rw [Color.formatLoop_cons hp] at h
        unfold Color.formatBody at h
        have d : ∀ l ∈ [bs "reverse ", bs "bold ", bs "nobold ", bs "italic ", bs "underline ", bs "default ", bs "on ", bs "on default "], Plain l := by
          decide +kernel
        have lim : ∀ {P : Prop} [Decidable P] {b : Option (Option (List Nat))}, (if P then some none else b) = some (some out') → b = some (some out') := by
          intro P _ b h
          split at h
          · cases h
          · exact h
        replace h := lim (lim h)
        rcases of_ite h with ⟨_, h⟩ | ⟨_, h⟩
        · exact ih _ _ _ ho (lim h)
        rcases of_ite h with ⟨_, h⟩ | ⟨_, h⟩
        · exact ih _ _ _ (plain_append ho (d _ (by simp))) (lim h)
        rcases of_ite h with ⟨_, h⟩ | ⟨_, h⟩
        · refine ih _ _ _ (plain_append ho ?_) (lim h)
          split <;> exact d _ (by simp)
        rcases of_ite h with ⟨_, h⟩ | ⟨_, h⟩
        · exact ih _ _ _ (plain_append ho (d _ (by simp))) (lim h)
        rcases of_ite h with ⟨_, h⟩ | ⟨_, h⟩
        · exact ih _ _ _ (plain_append ho (d _ (by simp))) (lim h)
        rcases of_ite h with ⟨hx, h⟩ | ⟨_, h⟩
        · exact ih _ _ _ (plain_append ho (plain_colorName hx)) (lim h)
        rcases of_ite h with ⟨hx, h⟩ | ⟨_, h⟩
        · exact absurd hx.2 (by simp)
        rcases of_ite h with ⟨_, h⟩ | ⟨_, h⟩
        · exact ih _ _ _ (plain_append ho (d _ (by simp))) (lim h)
        rcases of_ite h with ⟨hx, h⟩ | ⟨_, h⟩
        · refine ih _ _ _ (plain_append (plain_append (plain_append ho ?_) (d _ (by simp))) (plain_colorName (by omega))) (lim h)
          split
          · exact ⟨by simp, by simp⟩
          · exact d _ (by simp)
        rcases of_ite h with ⟨hx, h⟩ | ⟨_, h⟩
        · exact absurd hx.2 (by simp)
        rcases of_ite h with ⟨_, h⟩ | ⟨_, h⟩
        · exact ih _ _ _ (plain_append ho (d _ (by simp))) (lim h)
        cases h

theorem stripEnd_prefix {s t u : List Nat} (h : Color.stripEnd s t = some u) : u <+: s := by
  unfold Color.stripEnd at h
  split at h
  · cases h
    exact List.take_prefix _ _
  · cases h

theorem trimBlanks_prefix (s : List Nat) : Color.trimBlanks s <+: s := by
  unfold Color.trimBlanks
  obtain ⟨t, ht⟩ := List.dropWhile_suffix (· == 32) (l := s.reverse)
  refine ⟨t.reverse, ?_⟩
  rw [← List.reverse_append, ht, List.reverse_reverse]

theorem format_value {code d : List Nat} (hc : LineOk code) (h : Color.format true code = some d) : ValueOk d := by
  unfold Color.format at h
  split at h
  · cases h
    exact ⟨hc' , by simp⟩
  · obtain ⟨r, hr, h⟩ := Option.map_eq_some_iff.1 h
    cases r with
    | none =>
      cases h
      refine ⟨lineOk_append (lineOk_ascii (by decide)) hc, ?_⟩
      intro c hc
      cases hc
      unfold Space
      decide
    | some out =>
      have ho := formatLoop_plain _ _ _ _ _ ⟨by simp, by simp⟩ hr
      apply plain_value
      simp only at h
      split at h
      · cases h
        decide
      · cases h
        refine plain_prefix (plain_prefix ho ?_) (trimBlanks_prefix _)
        split
        · rename_i s hs
          exact stripEnd_prefix hs
        · cases hs : Color.stripEnd out (bs "on default ") with
          | none => exact List.prefix_refl _
          | some s => exact stripEnd_prefix hs
where hc' : LineOk [] := ⟨.nil, by simp, by simp⟩

theorem digits_line (n : Nat) : ∀ c ∈ Color.digits n, 32 ≤ c ∧ c < 128 := fun c hc => by
  have := (Color.digits_decimal n).2.1 c hc
  omega

theorem colorCode_line (base : Nat) (hex : Bool) (x : Int) : ∀ c ∈ Color.colorCode base hex x, 32 ≤ c ∧ c < 128 := by
  intro c hc
  unfold Color.colorCode at hc
  split at hc
  · cases hc
  · simp only at hc
    have e : ∀ c ∈ bs ";2;", 32 ≤ c ∧ c < 128 := by decide
    split at hc
    · simp only [List.mem_append, List.mem_cons] at hc
      rcases hc with ((((rfl | hc) | hc) | hc) | rfl | hc) | rfl | hc <;> first | (constructor <;> omega) | exact digits_line _ _ hc | exact e c hc
    · rcases List.mem_cons.1 hc with rfl | hc
      · constructor <;> omega
      · exact digits_line _ _ hc

theorem code_line (s : Color.St) : ∀ c ∈ s.code, 32 ≤ c ∧ c < 128 := by
  intro c hc
  unfold Color.St.code at hc
  simp only [List.mem_append] at hc
  have e : ∀ l ∈ [bs "0", bs ";7", bs ";1", bs ";22", bs ";3", bs ";4", []], ∀ c ∈ l, 32 ≤ c ∧ c < 128 := by decide
  rcases hc with (((((hc | hc) | hc) | hc) | hc) | hc) | hc
  · exact e _ (by simp) c hc
  · rcases mem_ite hc with hc | hc <;> exact e _ (by simp) c hc
  · rcases mem_ite hc with hc | hc
    · exact e _ (by simp) c hc
    · rcases mem_ite hc with hc | hc <;> exact e _ (by simp) c hc
  · rcases mem_ite hc with hc | hc <;> exact e _ (by simp) c hc
  · rcases mem_ite hc with hc | hc <;> exact e _ (by simp) c hc
  · exact colorCode_line _ _ _ c hc
  · exact colorCode_line _ _ _ c hc

theorem colour_round {code : List Nat} (h : ColourOk code) : ∃ d, Color.format true code = some d ∧ ValueOk d ∧ Color.parse d = some code := by
  cases h with
  | @described v code h hr =>
    obtain ⟨d, h1, h2⟩ := Color.C23_round true h hr
    refine ⟨d, h1, format_value ?_ h1, h2⟩
    apply lineOk_ascii
    unfold Color.parse at h
    split at h
    · cases h; simp
    · simp only at h
      split at h
      · cases h
        exact code_line _
      · rename_i t ts ht
        split at h
        · rename_i hraw
          exfalso
          refine hr t (by rw [ht]; rfl) ?_
          rw [Bool.or_eq_true] at hraw
          unfold Color.iequal at hraw
          unfold Color.Spec.Raw
          rw [Color.like_iff (by decide), Color.like_iff (by decide)]
          simpa [or_comm] using hraw
        · obtain ⟨s, -, rfl⟩ := Option.map_eq_some_iff.1 h
          exact code_line _
  | @other _ ws w hc hw hlen hm hd =>
    obtain ⟨h1, h2⟩ := Color.C23_other true hc hw hlen hm hd
    exact ⟨_, h1, format_value (lineOk_ascii fun c h => by have := hc c h; omega) h1, h2⟩

/-! ### All types -/

theorem parseInt_decimal {env : Env} (ok : AtoiOk env.atoi) {n : Int} (h : -2147483648 ≤ n ∧ n < 2147483648) :
    parseInt env (decimal n) = some (.num n) := by
  have hd := Color.digits_decimal n.natAbs
  obtain ⟨c, t, ht⟩ := List.exists_cons_of_ne_nil hd.1
  have hc := hd.2.1 c (by rw [ht]; simp)
  unfold parseInt decimal
  by_cases hn : n < 0
  · rw [if_pos hn, if_neg (by simp)]
    have := ok.neg (rest := []) hd (by simp)
    rw [List.append_nil] at this
    rw [this]
    congr 2
    split <;> omega
  · rw [if_neg hn, if_neg (by rw [ht]; simp [isDigit]; omega)]
    have := ok.pos (rest := []) hd (by simp)
    rw [List.append_nil] at this
    rw [this, if_pos (by omega)]
    congr 2
    omega

theorem decimal_value (n : Int) : ValueOk (decimal n) := by
  apply plain_value
  have hd := Color.digits_decimal n.natAbs
  have hl := digits_line n.natAbs
  unfold decimal
  split
  · exact ⟨fun c hc => by rcases List.mem_cons.1 hc with rfl | hc; (constructor <;> omega); exact hl c hc, by simp⟩
  · refine ⟨hl, fun h => ?_⟩
    have := hd.2.1 32 (List.mem_of_head? h)
    omega

theorem autoOptions : Options (bs "off,check,prompt,auto") [bs "off", bs "check", bs "prompt", bs "auto"] :=
  .more (w := bs "off") (by decide) (.more (w := bs "check") (by decide) (.more (w := bs "prompt") (by decide) (.last (w := bs "auto") (by decide) (by decide))))

theorem options_length {o : List Nat} {a b : List (List Nat)} (ha : Options o a) (hb : Options o b) : a.length = b.length := by
  have key : ∀ {a b : List (List Nat)}, Options o a → Options o b → ¬ a.length < b.length := by
    intro a b ha hb h
    obtain ⟨v, w, h1, h2, -⟩ := (repeat_nextOption hb a.length).1 h
    exact h2 (by rw [← h1]; exact (repeat_nextOption ha a.length).2 (Nat.le_refl _))
  have := key ha hb
  have := key hb ha
  omega

theorem autoupdate_other {name : List Nat} (h : ¬ Like name (bs "clink.autoupdate")) (v : List Nat) : autoupdate name v = v := by
  rw [like_same (by decide)] at h
  unfold autoupdate
  rw [if_neg h]

/-- What is written for a value is read as the value. -/
theorem value_round {env : Env} (ok : AtoiOk env.atoi) {s : Setting} (hd : DeclOk s) (hv : ValOk env.lower s.ty s.val) :
    ∃ t, descriptive s.ty s.val = some t ∧ ValueOk t ∧ parse env s.ty (autoupdate s.name t) = some s.val := by
  have other : (∀ o d, s.ty ≠ .enum o d) → ∀ v, autoupdate s.name v = v :=
    fun h => autoupdate_other fun hl => by
      obtain ⟨d, hd⟩ := hd.auto hl
      exact h _ _ hd
  have hauto := hd.auto
  generalize s.name = name at *
  generalize s.ty = ty at *
  generalize s.val = val at *
  clear hd
  cases hv with
  | no =>
    refine ⟨bs "False", rfl, plain_value (by decide), ?_⟩
    rw [other (by simp)]
    have h1 : same (trim (bs "False")) (bs "true") = false := by decide +kernel
    have h2 : same (trim (bs "False")) (bs "false") = true := by decide +kernel
    simp [parse, parseBool, h1, h2]
  | yes =>
    refine ⟨bs "True", rfl, plain_value (by decide), ?_⟩
    rw [other (by simp)]
    have h1 : same (trim (bs "True")) (bs "true") = true := by decide +kernel
    simp [parse, parseBool, h1]
  | int h =>
    refine ⟨_, rfl, decimal_value _, ?_⟩
    rw [other (by simp)]
    exact parseInt_decimal ok h
  | str h =>
    refine ⟨_, rfl, h, ?_⟩
    rw [other (by simp)]
    rfl
  | @enum o d names k h hn ho hk =>
    have hr := C24_round ok h hn.count hn.differ hn.number k names[k] (List.getElem?_eq_getElem hk)
      (hn.values _ (List.getElem_mem hk)).utf8
    refine ⟨_, rfl, ?_, ?_⟩
    · show ValueOk (optionName o k)
      rw [hr.1]
      exact hn.values _ (List.getElem_mem hk)
    · show parseEnum env o (autoupdate name (optionName o k)) = _
      by_cases hl : Like name (bs "clink.autoupdate")
      · obtain ⟨d', hd'⟩ := hauto hl
        cases hd'
        have h4 : names.length = 4 := options_length h autoOptions
        have e : ∀ v, autoupdate name v = autoupdate (bs "clink.autoupdate") v := by
          intro v
          have e1 := (like_same (by decide)).1 hl
          have e2 : same (bs "clink.autoupdate") (bs "clink.autoupdate") = true := by decide +kernel
          unfold autoupdate
          rw [e1, e2]
        rw [e]
        have hr2 := hr.2
        match k, hk with
        | 0, _ =>
          have : autoupdate (bs "clink.autoupdate") (optionName (bs "off,check,prompt,auto") (0 : Nat)) = bs "0" := by decide +kernel
          rw [this]
          exact (C24_selects ok autoOptions (by decide) _).2 ⟨0, rfl, ⟨bs "off", rfl, .inl ⟨by decide, by decide, by decide⟩⟩, by omega⟩
        | 1, _ =>
          have : autoupdate (bs "clink.autoupdate") (optionName (bs "off,check,prompt,auto") (1 : Nat)) = optionName (bs "off,check,prompt,auto") (1 : Nat) := by decide +kernel
          rw [this]
          exact hr2
        | 2, _ =>
          have : autoupdate (bs "clink.autoupdate") (optionName (bs "off,check,prompt,auto") (2 : Nat)) = optionName (bs "off,check,prompt,auto") (2 : Nat) := by decide +kernel
          rw [this]
          exact hr2
        | 3, _ =>
          have : autoupdate (bs "clink.autoupdate") (optionName (bs "off,check,prompt,auto") (3 : Nat)) = optionName (bs "off,check,prompt,auto") (3 : Nat) := by decide +kernel
          rw [this]
          exact hr2
        | k + 4, hk => omega
      · rw [autoupdate_other hl]
        exact hr.2
  | color h =>
    obtain ⟨d, h1, h2, h3⟩ := colour_round h
    refine ⟨d, h1, h2, ?_⟩
    rw [other (by simp)]
    show (Color.parse d).map _ = _
    rw [h3]
    rfl

end Clink.Settings
