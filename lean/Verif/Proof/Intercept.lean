import Verif.Spec.Intercept

/-! The word of a line. -/

namespace Clink.Intercept

open Spec
open StrCompare (isSep)
open Settings (same)

theorem blank_iff {c : Nat} : blank c = true ↔ c = 32 ∨ c = 9 := by simp [blank]

theorem isSep_iff {c : Nat} : isSep c = true ↔ IsSep c := by simp [isSep, IsSep]

theorem skip_nil {l : List Nat} : skip l = [] ↔ Blanks l := by
  unfold skip Blanks
  induction l with
  | nil => simp
  | cons c l ih =>
    rw [List.dropWhile_cons]
    split
    · rename_i h
      rw [ih]
      have := blank_iff.1 h
      simp [this]
    · rename_i h
      simp only [blank_iff] at h
      simp [h]

theorem skip_split (l : List Nat) : ∃ a, Blanks a ∧ l = a ++ skip l := by
  unfold skip
  induction l with
  | nil => exact ⟨[], by simp [Blanks], rfl⟩
  | cons c l ih =>
    rw [List.dropWhile_cons]
    split
    · rename_i h
      obtain ⟨a, h1, h2⟩ := ih
      refine ⟨c :: a, ?_, by rw [List.cons_append, ← h2]⟩
      intro x hx
      rcases List.mem_cons.1 hx with rfl | hx
      · exact blank_iff.1 h
      · exact h1 x hx
    · exact ⟨[], by simp [Blanks], rfl⟩

theorem skip_append {a l : List Nat} (h : Blanks a) : skip (a ++ l) = skip l := by
  unfold skip
  induction a with
  | nil => rfl
  | cons c a ih =>
    rw [List.cons_append, List.dropWhile_cons, if_pos (blank_iff.2 (h c (by simp))), ih fun x hx => h x (by simp [hx])]

theorem skip_id {l : List Nat} (h : ∀ c, l.head? = some c → c ≠ 32 ∧ c ≠ 9) : skip l = l := by
  unfold skip
  cases l with
  | nil => rfl
  | cons c l =>
    have := h c rfl
    rw [List.dropWhile_cons, if_neg]
    simp only [blank_iff]
    omega

theorem skip_head (l : List Nat) (c : Nat) (h : (skip l).head? = some c) : c ≠ 32 ∧ c ≠ 9 := by
  have : blank c = false := by
    unfold skip at h
    have := List.head?_dropWhile_not blank l
    rw [h] at this
    simpa using this
  simp [blank] at this
  exact this

theorem same_iff {a b : List Nat} : same a b = true ↔ lower a = lower b := by
  simp [same, lower]

theorem known_commands : known = commands := by decide

theorem commands_lower : ∀ c ∈ commands, lower c = c := by decide

theorem command_iff {l : List Nat} : commands.any (same l) = true ↔ lower l ∈ commands := by
  rw [List.any_eq_true]
  constructor
  · rintro ⟨c, h1, h2⟩
    rw [same_iff, commands_lower c h1] at h2
    rw [h2]; exact h1
  · intro h
    refine ⟨lower l, h, ?_⟩
    rw [same_iff, commands_lower _ h]

/-- Whether a text ends within quotes. -/
def ends : Bool → List Nat → Bool
  | q, [] => q
  | q, c :: r => ends (if c = 34 then !q else q) r

theorem ends_count : ∀ (w : List Nat) (q : Bool), ends q w = (q ^^ decide (w.count 34 % 2 = 1))
  | [], q => by simp [ends]
  | c :: w, q => by
    unfold ends
    rw [ends_count w]
    by_cases h : c = 34
    · subst h
      rw [List.count_cons_self, if_pos rfl]
      rcases Nat.mod_two_eq_zero_or_one (w.count 34) with h1 | h1
      · have : (w.count 34 + 1) % 2 = 1 := by omega
        simp [h1, this]
      · have : (w.count 34 + 1) % 2 = 0 := by omega
        simp [h1, this]
    · rw [List.count_cons_of_ne h, if_neg h]

structure Rest (q first : Bool) (out l w b : List Nat) : Prop where
  parts : l = w ++ b
  after : Blanks b
  closed : b ≠ [] → ends q w = false
  redir : ∀ c ∈ w, c ∉ Color.bs "<|>"
  special : ∀ x ∈ marks q w, x.2 = false → x.1 ∉ Color.bs "@()&+=;, \t"
  command : first = true → ∀ p c s, w = p ++ c :: s → c ∈ Color.bs "./\\" → (∀ x ∈ p, x ∉ Color.bs "./\\\"^%") → lower (out ++ p) ∉ commands

variable {q first first' : Bool} {out out' l w b : List Nat} {c : Nat}

theorem rest_cons (h : Rest (if c = 34 then !q else q) first' out' l w b) (h1 : c ∉ Color.bs "<|>") (h2 : q = false → c ∉ Color.bs "@()&+=;, \t")
    (h3 : first = true → (c ∈ Color.bs "./\\" → lower out ∉ commands) ∧ (c ∉ Color.bs "./\\\"^%" → first' = true ∧ out' = out ++ [c])) :
    Rest q first out (c :: l) (c :: w) b := by
  obtain ⟨i1, i2, i3, i4, i5, i6⟩ := h
  refine ⟨by rw [i1]; rfl, i2, i3, ?_, ?_, ?_⟩
  · intro x hx
    rcases List.mem_cons.1 hx with rfl | hx
    · exact h1
    · exact i4 x hx
  · intro x hx
    unfold marks at hx
    rcases List.mem_cons.1 hx with rfl | hx
    · exact h2
    · exact i5 x hx
  · intro hf p c' s hp hc hpc
    cases p with
    | nil =>
      rw [List.nil_append] at hp
      cases hp
      rw [List.append_nil]
      exact (h3 hf).1 hc
    | cons x p =>
      rw [List.cons_append] at hp
      cases hp
      obtain ⟨j1, j2⟩ := (h3 hf).2 (hpc _ (by simp))
      have := i6 j1 p c' s rfl hc fun x hx => hpc x (by simp [hx])
      rw [j2] at this
      rw [show out ++ c :: p = out ++ [c] ++ p by simp]
      exact this

theorem rest_tail (h : Rest q first out (c :: l) (c :: w) b) (h3 : first' = true → first = true ∧ c ∉ Color.bs "./\\\"^%" ∧ out' = out ++ [c]) :
    Rest (if c = 34 then !q else q) first' out' l w b ∧ c ∉ Color.bs "<|>" ∧ (q = false → c ∉ Color.bs "@()&+=;, \t") ∧
      (first = true → c ∈ Color.bs "./\\" → lower out ∉ commands) := by
  obtain ⟨i1, i2, i3, i4, i5, i6⟩ := h
  refine ⟨⟨by simpa using i1, i2, i3, fun x hx => i4 x (by simp [hx]), fun x hx => i5 x (by rw [marks]; simp [hx]), ?_⟩, i4 c (by simp), ?_, ?_⟩
  · intro hf p c' s hp hc hpc
    obtain ⟨j1, j2, j3⟩ := h3 hf
    have := i6 j1 (c :: p) c' s (by rw [hp]; rfl) hc (by
      intro x hx
      rcases List.mem_cons.1 hx with rfl | hx
      · exact j2
      · exact hpc x hx)
    rw [j3]
    simpa using this
  · exact fun hq => i5 (c, q) (by rw [marks]; simp) hq
  · intro hf hc
    have := i6 hf [] c w rfl hc (by simp)
    simpa using this

theorem mem_redir : c ∈ Color.bs "<|>" ↔ c = 60 ∨ c = 124 ∨ c = 62 := by simp [show Color.bs "<|>" = [60, 124, 62] by decide]
theorem mem_special : c ∈ Color.bs "@()&+=;, \t" ↔ (c = 64 ∨ c = 40 ∨ c = 41 ∨ c = 38 ∨ c = 43 ∨ c = 61 ∨ c = 59 ∨ c = 44) ∨ c = 32 ∨ c = 9 := by
  simp [show Color.bs "@()&+=;, \t" = [64, 40, 41, 38, 43, 61, 59, 44, 32, 9] by decide]
  omega
theorem mem_sep : c ∈ Color.bs "./\\" ↔ c = 46 ∨ IsSep c := by simp [show Color.bs "./\\" = [46, 47, 92] by decide, IsSep]
theorem mem_stop : c ∈ Color.bs "./\\\"^%" ↔ (c = 46 ∨ IsSep c) ∨ c = 34 ∨ c = 94 ∨ c = 37 := by
  simp [show Color.bs "./\\\"^%" = [46, 47, 92, 34, 94, 37] by decide, IsSep]
  omega

theorem token_sound : ∀ (l : List Nat) (q e first : Bool) (out o : List Nat) (e' : Bool), tokenGo q e first out l = some (o, e') →
    ∃ w b, Rest q first out l w b ∧ o = out ++ kept b.isEmpty (marks q w) ∧ e' = (e || decide (37 ∈ w))
  | [], q, e, first, out, o, e', h => by
    simp only [tokenGo, Option.some.injEq, Prod.mk.injEq] at h
    obtain ⟨rfl, rfl⟩ := h
    exact ⟨[], [], ⟨rfl, by simp [Blanks], by simp, by simp, by simp [marks], by simp⟩, by simp [marks, kept], by simp⟩
  | c :: r, q, e, first, out, o, e', h => by
    unfold tokenGo at h
    split at h
    · rename_i hb
      split at h
      · rename_i hs
        simp only [Option.some.injEq, Prod.mk.injEq] at h
        obtain ⟨rfl, rfl⟩ := h
        simp only [Bool.and_eq_true, Bool.not_eq_true', blank_iff] at hb
        refine ⟨[], c :: r, ⟨rfl, ?_, fun _ => hb.2, by simp, by simp [marks], by simp⟩, by simp [marks, kept], by simp⟩
        intro x hx
        rcases List.mem_cons.1 hx with rfl | hx
        · exact hb.1
        · exact skip_nil.1 hs x hx
      · cases h
    · rename_i hb
      have hb : q = false → c ≠ 32 ∧ c ≠ 9 := by
        intro hq
        simp only [hq, Bool.not_false, Bool.and_true, blank_iff] at hb
        omega
      split at h
      · cases h
      · rename_i hr
        rw [← mem_redir] at hr
        have go : ∀ first' out' e1, tokenGo (if c = 34 then !q else q) e1 first' out' r = some (o, e') →
            (q = false → ¬ (c = 64 ∨ c = 40 ∨ c = 41 ∨ c = 38 ∨ c = 43 ∨ c = 61 ∨ c = 59 ∨ c = 44)) →
            (first = true → (c ∈ Color.bs "./\\" → lower out ∉ commands) ∧ (c ∉ Color.bs "./\\\"^%" → first' = true ∧ out' = out ++ [c])) →
            e1 = (e || decide (c = 37)) →
            (∀ w b, r = w ++ b → out' ++ kept b.isEmpty (marks (if c = 34 then !q else q) w) = out ++ kept b.isEmpty (marks q (c :: w))) →
            ∃ w b, Rest q first out (c :: r) w b ∧ o = out ++ kept b.isEmpty (marks q w) ∧ e' = (e || decide (37 ∈ w)) := by
          intro first' out' e1 hgo h1 h2 h3 h4
          obtain ⟨w, b, j1, j2, j3⟩ := token_sound r _ _ _ _ _ _ hgo
          refine ⟨c :: w, b, rest_cons j1 hr (fun hq hm => ?_) h2, ?_, ?_⟩
          · rw [mem_special] at hm
            rcases hm with hm | hm
            · exact h1 hq hm
            · have := hb hq; omega
          · rw [j2, h4 w b j1.parts]
          · rw [j3, h3]
            by_cases hc : c = 37
            · simp [hc]
            · simp [hc, show ¬ (37 = c) from fun h => hc h.symm]
        split at h
        · rename_i hs
          have hc34 : c ≠ 34 := by omega
          split at h
          · cases h
          · rename_i hq
            simp only [Bool.not_eq_true', Bool.not_eq_false] at hq
            refine go first (out ++ [c]) e (by rw [if_neg hc34]; exact h) (fun h => by simp [hq] at h) (fun hf => ⟨fun hm => ?_, fun _ => ⟨hf, rfl⟩⟩) ?_ ?_
            · rw [mem_sep] at hm; unfold IsSep at hm; omega
            · rw [decide_eq_false (by omega), Bool.or_false]
            · intro w b _
              rw [if_neg hc34, marks, if_neg hc34, kept, if_neg (by omega)]
              simp
        · rename_i hs
          split at h
          · rename_i hc
            refine go false out e (by rw [if_pos hc]; exact h) (fun _ => hs) (fun _ => ⟨fun hm => ?_, fun hm => ?_⟩) ?_ ?_
            · rw [mem_sep] at hm; unfold IsSep at hm; omega
            · rw [mem_stop] at hm; omega
            · rw [decide_eq_false (by omega), Bool.or_false]
            · intro w b _
              rw [if_pos hc, marks, if_pos hc, kept, if_pos (.inl hc)]
          · rename_i hc34
            split at h
            · rename_i hc
              split at h
              · rename_i hq
                simp only [Bool.and_eq_true, Bool.not_eq_true'] at hq
                refine go false out e (by rw [if_neg hc34]; exact h) (fun _ => hs) (fun _ => ⟨fun hm => ?_, fun hm => ?_⟩) ?_ ?_
                · rw [mem_sep] at hm; unfold IsSep at hm; omega
                · rw [mem_stop] at hm; omega
                · rw [decide_eq_false (by omega), Bool.or_false]
                · intro w b hwb
                  rw [if_neg hc34, marks, if_neg hc34, kept, if_pos]
                  refine .inr ⟨hc, hq.1, ?_⟩
                  rintro ⟨h1, h2⟩
                  have : w = [] := by cases w with | nil => rfl | cons => simp [marks] at h1
                  rw [hwb, this] at hq
                  simp_all
              · rename_i hq
                simp only [Bool.and_eq_true, Bool.not_eq_true', not_and, Bool.not_eq_false] at hq
                refine go false (out ++ [c]) e (by rw [if_neg hc34]; exact h) (fun _ => hs) (fun _ => ⟨fun hm => ?_, fun hm => ?_⟩) ?_ ?_
                · rw [mem_sep] at hm; unfold IsSep at hm; omega
                · rw [mem_stop] at hm; omega
                · rw [decide_eq_false (by omega), Bool.or_false]
                · intro w b hwb
                  rw [if_neg hc34, marks, if_neg hc34, kept, if_neg]
                  · simp
                  · rintro (h1 | ⟨-, h1, h2⟩)
                    · omega
                    · have hr := hq h1
                      rw [List.isEmpty_iff] at hr
                      rw [hr] at hwb
                      have := List.append_eq_nil_iff.1 hwb.symm
                      exact h2 ⟨by rw [this.1]; rfl, by rw [this.2]; rfl⟩
            · rename_i hc94
              split at h
              · rename_i hc
                refine go false (out ++ [c]) true (by rw [if_neg hc34]; exact h) (fun _ => hs) (fun _ => ⟨fun hm => ?_, fun hm => ?_⟩) ?_ ?_
                · rw [mem_sep] at hm; unfold IsSep at hm; omega
                · rw [mem_stop] at hm; omega
                · simp [hc]
                · intro w b _
                  rw [if_neg hc34, marks, if_neg hc34, kept, if_neg (by omega)]
                  simp
              · rename_i hc37
                have hk : ∀ w b, r = w ++ b → out ++ [c] ++ kept b.isEmpty (marks (if c = 34 then !q else q) w) = out ++ kept b.isEmpty (marks q (c :: w)) := by
                  intro w b _
                  rw [if_neg hc34, marks, if_neg hc34, kept, if_neg (by omega)]
                  simp
                split at h
                · rename_i hc
                  rw [isSep_iff] at hc
                  split at h
                  · cases h
                  · rename_i hcmd
                    refine go false (out ++ [c]) e (by rw [if_neg hc34]; exact h) (fun _ => hs) (fun hf => ⟨fun _ => ?_, fun hm => ?_⟩) (by simp [hc37]) hk
                    · intro hm
                      rw [← command_iff] at hm
                      simp [hf, hm] at hcmd
                    · rw [mem_stop] at hm; exact absurd (.inl hc) hm
                · rename_i hc
                  rw [isSep_iff] at hc
                  refine go first (out ++ [c]) e (by rw [if_neg hc34]; exact h) (fun _ => hs) (fun hf => ⟨fun hm => ?_, fun _ => ⟨hf, rfl⟩⟩) (by simp [hc37]) hk
                  rw [mem_sep] at hm; exact absurd hm hc

theorem token_complete : ∀ (w b l : List Nat) (q e first : Bool) (out : List Nat), Rest q first out l w b →
    tokenGo q e first out l = some (out ++ kept b.isEmpty (marks q w), e || decide (37 ∈ w))
  | [], b, l, q, e, first, out, h => by
    obtain ⟨i1, i2, i3, -, -, -⟩ := h
    rw [List.nil_append] at i1
    subst i1
    cases l with
    | nil => simp [tokenGo, marks, kept]
    | cons c b =>
      have hq : q = false := i3 (by simp)
      have hb : blank c = true := blank_iff.2 (i2 c (by simp))
      have hs : skip b = [] := skip_nil.2 fun x hx => i2 x (by simp [hx])
      simp [tokenGo, hq, hb, hs, marks, kept]
  | c :: w, b, l, q, e, first, out, h => by
    have hl := h.parts
    rw [List.cons_append] at hl
    subst hl
    obtain ⟨-, j2, j3, j4⟩ := rest_tail (first' := false) (out' := []) h (by simp)
    have go : ∀ first' out' e1, (first' = true → first = true ∧ c ∉ Color.bs "./\\\"^%" ∧ out' = out ++ [c]) → e1 = (e || decide (c = 37)) →
        out' ++ kept b.isEmpty (marks (if c = 34 then !q else q) w) = out ++ kept b.isEmpty (marks q (c :: w)) →
        tokenGo (if c = 34 then !q else q) e1 first' out' (w ++ b) = some (out ++ kept b.isEmpty (marks q (c :: w)), e || decide (37 ∈ c :: w)) := by
      intro first' out' e1 h1 h2 h3
      rw [token_complete w b _ _ _ _ _ (rest_tail h h1).1, h3, h2]
      congr 2
      by_cases hc : c = 37
      · simp [hc]
      · simp [hc, show ¬ (37 = c) from fun h => hc h.symm]
    rw [mem_redir] at j2
    rw [mem_special] at j3
    unfold tokenGo
    rw [if_neg (by
      simp only [Bool.and_eq_true, Bool.not_eq_true', blank_iff]
      rintro ⟨h1, h2⟩
      have := j3 h2
      omega), if_neg j2]
    split
    · rename_i hs
      rw [if_neg (by
        simp only [Bool.not_eq_true']
        intro hq
        exact j3 hq (.inl hs))]
      have hc34 : c ≠ 34 := by omega
      have := go first (out ++ [c]) e (fun hf => ⟨hf, by rw [mem_stop]; unfold IsSep; omega, rfl⟩) (by rw [decide_eq_false (by omega), Bool.or_false]) (by
        rw [if_neg hc34, marks, if_neg hc34, kept, if_neg (by omega)]; simp)
      rw [if_neg hc34] at this
      exact this
    · rename_i hs
      split
      · rename_i hc
        have := go false out e (by simp) (by rw [decide_eq_false (by omega), Bool.or_false]) (by rw [if_pos hc, marks, if_pos hc, kept, if_pos (.inl hc)])
        rw [if_pos hc] at this
        exact this
      · rename_i hc34
        split
        · rename_i hc
          split
          · rename_i hq
            simp only [Bool.and_eq_true, Bool.not_eq_true'] at hq
            have := go false out e (by simp) (by rw [decide_eq_false (by omega), Bool.or_false]) (by
              rw [if_neg hc34, marks, if_neg hc34, kept, if_pos]
              refine .inr ⟨hc, hq.1, ?_⟩
              rintro ⟨h1, h2⟩
              have : w = [] := by cases w with | nil => rfl | cons => simp [marks] at h1
              rw [this] at hq
              simp_all)
            rw [if_neg hc34] at this
            exact this
          · rename_i hq
            simp only [Bool.and_eq_true, Bool.not_eq_true', not_and, Bool.not_eq_false] at hq
            have := go false (out ++ [c]) e (by simp) (by rw [decide_eq_false (by omega), Bool.or_false]) (by
              rw [if_neg hc34, marks, if_neg hc34, kept, if_neg]
              · simp
              · rintro (h1 | ⟨-, h1, h2⟩)
                · omega
                · have hr := hq h1
                  rw [List.isEmpty_iff] at hr
                  have := List.append_eq_nil_iff.1 hr
                  exact h2 ⟨by rw [this.1]; rfl, by rw [this.2]; rfl⟩)
            rw [if_neg hc34] at this
            exact this
        · rename_i hc94
          have hk : out ++ [c] ++ kept b.isEmpty (marks (if c = 34 then !q else q) w) = out ++ kept b.isEmpty (marks q (c :: w)) := by
            rw [if_neg hc34, marks, if_neg hc34, kept, if_neg (by omega)]
            simp
          split
          · rename_i hc
            have := go false (out ++ [c]) true (by simp) (by simp [hc]) hk
            rw [if_neg hc34] at this
            exact this
          · rename_i hc37
            split
            · rename_i hc
              rw [isSep_iff] at hc
              rw [if_neg (by
                simp only [Bool.and_eq_true, command_iff]
                rintro ⟨h1, h2⟩
                exact j4 h1 (by rw [mem_sep]; exact hc) h2)]
              have := go false (out ++ [c]) e (by simp) (by simp [hc37]) hk
              rw [if_neg hc34] at this
              exact this
            · rename_i hc
              rw [isSep_iff] at hc
              have := go first (out ++ [c]) e (fun hf => ⟨hf, by
                rw [mem_stop]
                rintro (h | h | h | h)
                · exact hc h
                all_goals omega, rfl⟩) (by simp [hc37]) hk
              rw [if_neg hc34] at this
              exact this

theorem oneWord_rest {line a w b : List Nat} (h : OneWord line a w b) (hw : w ≠ []) : Rest false true [] (skip line) w b := by
  obtain ⟨i1, i2, i3, i4, i5, i6, i7⟩ := h
  have hs : skip (w ++ b) = w ++ b := by
    apply skip_id
    intro c hc
    match w, hw with
    | x :: w, _ =>
      simp only [List.cons_append, List.head?_cons, Option.some.injEq] at hc
      subst hc
      have := i6 (x, false) (by rw [marks]; simp) rfl
      rw [mem_special] at this
      omega
  refine ⟨by rw [i1, List.append_assoc, skip_append i2, hs], i3, ?_, i5, i6, fun _ => by simpa [known_commands] using i7⟩
  intro hb
  rw [ends_count, i4 hb]
  rfl

theorem token_iff (os : Os) (line t : List Nat) : lineToken os line = some t ↔ Token os line t := by
  unfold lineToken
  constructor
  · intro h
    split at h
    · cases h
    · rename_i out e hgo
      obtain ⟨w, b, h1, h2, h3⟩ := token_sound _ _ _ _ _ _ _ hgo
      obtain ⟨a, ha, hl⟩ := skip_split line
      rw [List.nil_append] at h2
      subst h2
      rw [Bool.false_or] at h3
      subst h3
      simp only [decide_eq_true_eq] at h
      refine ⟨a, w, b, ⟨by rw [hl, h1.parts, List.append_assoc], ha, h1.after, ?_, h1.redir, h1.special, by simpa [known_commands] using h1.command rfl⟩, ?_⟩
      · intro hb
        have := h1.closed hb
        rw [ends_count] at this
        simp at this
        omega
      · generalize (if 37 ∈ w then os.expand (kept b.isEmpty (marks false w)) else kept b.isEmpty (marks false w)) = o at h ⊢
        split at h
        · cases h
        · rename_i hne
          cases h
          exact ⟨hne, rfl⟩
  · rintro ⟨a, w, b, h1, h2, h3⟩
    have hw : w ≠ [] := by
      rintro rfl
      simp [marks, kept] at h3
      exact h2 h3
    rw [token_complete w b _ _ false _ _ (oneWord_rest h1 hw)]
    dsimp only
    simp only [List.nil_append, Bool.false_or, decide_eq_true_eq]
    rw [← h3, if_neg h2]

end Clink.Intercept
