import Verif.Proof.Intercept

/-! What becomes of a line, and the directory history. -/

namespace Clink.Intercept

open Spec
open StrCompare (isSep)
open Settings (same)

theorem dash_iff (l : List Nat) : dash l = true ↔ ∃ c, Blanks c ∧ l = [45] ++ c := by
  unfold dash
  split
  · rename_i r
    rw [beq_iff_eq, skip_nil]
    constructor
    · exact fun h => ⟨r, h, rfl⟩
    · rintro ⟨c, h1, h2⟩
      simp at h2
      rw [h2]; exact h1
  · rename_i h
    constructor
    · intro h'; cases h'
    · rintro ⟨c, -, h2⟩
      exact absurd h2 (h c)

theorem lower_length (l : List Nat) : (lower l).length = l.length := by simp [lower]

theorem lower_head {w : List Nat} {x : Nat} {r : List Nat} (h : lower w = x :: r) : ∃ y w', w = y :: w' ∧ Color.lower y = x := by
  cases w with
  | nil => simp [lower] at h
  | cons y w' =>
    simp only [lower, List.map_cons, List.cons.injEq] at h
    exact ⟨y, w', rfl, h.1⟩

theorem lower_ne {y x : Nat} (h : Color.lower y = x) (hx : 97 ≤ x ∧ x ≤ 122) : y ≠ 32 ∧ y ≠ 9 := by
  unfold Color.lower at h
  split at h <;> omega

theorem have_space {l : List Nat} : (skip l != l) = true ↔ ∃ b, Blanks b ∧ b ≠ [] ∧ l = b ++ skip l := by
  rw [bne_iff_ne]
  constructor
  · intro h
    obtain ⟨b, h1, h2⟩ := skip_split l
    refine ⟨b, h1, ?_, h2⟩
    rintro rfl
    exact h h2.symm
  · rintro ⟨b, h1, h2, h3⟩ h4
    rw [h4] at h3
    have e := congrArg List.length h3
    have := List.length_pos_iff.2 h2
    rw [List.length_append] at e
    omega

theorem cd_sound {l cmd scan : List Nat} (h : parseCd l = some (cmd, scan)) :
    ∃ w, lower w = cmd ∧ (cmd = Color.bs "cd" ∨ cmd = Color.bs "chdir") ∧ ((∃ b, Blanks b ∧ b ≠ [] ∧ l = w ++ b ++ scan) ∨
      ∃ b d b', Blanks b ∧ lower d = Color.bs "/d" ∧ Blanks b' ∧ b' ≠ [] ∧ l = w ++ b ++ d ++ b' ++ scan) := by
  unfold parseCd at h
  dsimp only at h
  split at h
  · cases h
  · rename_i cmd' hcmd
    have hw : lower (l.take cmd'.length) = cmd' ∧ (cmd' = Color.bs "cd" ∨ cmd' = Color.bs "chdir") := by
      split at hcmd
      · rename_i h1
        cases hcmd
        rw [same_iff] at h1
        exact ⟨h1, .inl rfl⟩
      · split at hcmd
        · rename_i h1
          cases hcmd
          rw [same_iff] at h1
          exact ⟨h1, .inr rfl⟩
        · cases hcmd
    by_cases hd : same ((skip (l.drop cmd'.length)).take 2) (Color.bs "/d") = true
    · rw [if_pos hd] at h
      dsimp only at h
      split at h
      · rename_i hs
        cases h
        refine ⟨l.take cmd.length, hw.1, hw.2, .inr ?_⟩
        obtain ⟨b, h1, h2⟩ := skip_split (l.drop cmd.length)
        obtain ⟨b', h3, h4, h5⟩ := have_space.1 hs
        rw [same_iff] at hd
        refine ⟨b, _, b', h1, hd, h3, h4, ?_⟩
        conv => lhs; rw [← List.take_append_drop cmd.length l, h2, ← List.take_append_drop 2 (skip (l.drop cmd.length)), h5]
        simp
      · cases h
    · rw [if_neg hd] at h
      dsimp only at h
      split at h
      · rename_i hs
        cases h
        refine ⟨l.take cmd.length, hw.1, hw.2, .inl ?_⟩
        obtain ⟨b, h1, h2, h3⟩ := have_space.1 hs
        refine ⟨b, h1, h2, ?_⟩
        conv => lhs; rw [← List.take_append_drop cmd.length l, h3]
        simp
      · cases h

/-- `parseCd` after the command. -/
theorem cd_word {w r cmd : List Nat} (h : lower w = cmd) (hc : cmd = Color.bs "cd" ∨ cmd = Color.bs "chdir") :
    (if same ((w ++ r).take 2) (Color.bs "cd") then some (Color.bs "cd") else if same ((w ++ r).take 5) (Color.bs "chdir") then some (Color.bs "chdir") else none) = some cmd := by
  rcases hc with rfl | rfl
  · have hl : w.length = 2 := by rw [← lower_length, h]; decide
    rw [if_pos]
    rw [same_iff, ← hl, List.take_left, h]
    decide
  · have hl : w.length = 5 := by rw [← lower_length, h]; decide
    rw [if_neg, if_pos]
    · rw [same_iff, ← hl, List.take_left, h]
      decide
    · rw [same_iff, List.take_append_of_le_length (by omega)]
      intro h1
      have : lower (w.take 2) = (lower w).take 2 := by simp [lower, List.map_take]
      rw [this, h] at h1
      revert h1
      decide

theorem cd_complete {w b r : List Nat} (h : lower w = Color.bs "cd" ∨ lower w = Color.bs "chdir") (hb : Blanks b) (hb0 : b ≠ []) :
    parseCd (w ++ b ++ ([45] ++ r)) = some (lower w, [45] ++ r) := by
  unfold parseCd
  dsimp only
  rw [List.append_assoc, cd_word (cmd := lower w) rfl h]
  dsimp only
  rw [lower_length, List.drop_left, skip_append hb, skip_id (by simp)]
  have hd : ¬ same (([45] ++ r).take 2) (Color.bs "/d") = true := by
    rw [same_iff]
    intro h
    obtain ⟨y, w', h1, h2⟩ := lower_head (x := 47) (r := [100]) (h.trans (by decide))
    simp at h1
    rw [← h1.1] at h2
    revert h2
    decide
  rw [if_neg hd]
  dsimp only
  rw [if_pos]
  rw [bne_iff_ne]
  intro h
  have e := congrArg List.length h
  have := List.length_pos_iff.2 hb0
  rw [List.length_append (as := b)] at e
  omega

theorem cd_drive {w b d b' r : List Nat} (h : lower w = Color.bs "cd" ∨ lower w = Color.bs "chdir") (hb : Blanks b) (hd : lower d = Color.bs "/d") (hb' : Blanks b') (hb0 : b' ≠ []) :
    parseCd (w ++ b ++ d ++ b' ++ ([45] ++ r)) = some (lower w, [45] ++ r) := by
  have hl : d.length = 2 := by rw [← lower_length, hd]; decide
  unfold parseCd
  dsimp only
  rw [List.append_assoc, List.append_assoc, List.append_assoc, cd_word (cmd := lower w) rfl h]
  dsimp only
  rw [lower_length, List.drop_left, skip_append hb]
  obtain ⟨y, d', h1, h2⟩ := lower_head (x := 47) (r := [100]) (hd.trans (by decide))
  have hs : skip (d ++ (b' ++ ([45] ++ r))) = d ++ (b' ++ ([45] ++ r)) := by
    apply skip_id
    intro c hc
    rw [h1] at hc
    simp at hc
    subst hc
    unfold Color.lower at h2
    split at h2 <;> omega
  have hd' : same ((d ++ (b' ++ ([45] ++ r))).take 2) (Color.bs "/d") = true := by
    rw [same_iff, ← hl, List.take_left, hd]
    decide
  rw [hs, if_pos hd']
  dsimp only
  rw [← hl, List.drop_left, skip_append hb', skip_id (by simp)]
  rw [if_pos]
  rw [bne_iff_ne]
  intro h
  have e := congrArg List.length h
  have := List.length_pos_iff.2 hb0
  rw [List.length_append (as := b')] at e
  omega

theorem skip_word {a w r : List Nat} (ha : Blanks a) (h : lower w = Color.bs "cd" ∨ lower w = Color.bs "chdir") : skip (a ++ (w ++ r)) = w ++ r := by
  rw [skip_append ha]
  apply skip_id
  intro c hc
  have : ∃ t, lower w = 99 :: t := by
    rcases h with h | h
    · exact ⟨[100], h.trans (by decide)⟩
    · exact ⟨[104, 100, 105, 114], h.trans (by decide)⟩
  obtain ⟨t, ht⟩ := this
  obtain ⟨y, w', h1, h2⟩ := lower_head ht
  rw [h1] at hc
  simp at hc
  subst hc
  exact lower_ne h2 (by omega)

theorem cdDash_iff (os : Os) (line : List Nat) (only : Bool) : isCdDash os line only = true ↔ Dash os only line := by
  unfold isCdDash
  dsimp only
  constructor
  · intro h
    obtain ⟨a, ha, hl⟩ := skip_split line
    split at h
    · rename_i cmd scan hp
      obtain ⟨w, h1, h2, h3⟩ := cd_sound hp
      split at h
      · cases h
      · rename_i halias
        have hal : only = true → os.alias (lower w) = false := by
          intro ho
          rw [h1]
          simp [ho] at halias
          exact halias
        obtain ⟨c, hc, rfl⟩ := (dash_iff _).1 h
        rw [← h1] at h2
        rcases h3 with ⟨b, h3, h4, h5⟩ | ⟨b, d, b', h3, h4, h5, h6, h7⟩
        · rw [hl, h5]
          have := Dash.plain (os := os) (only := only) ha h2 h3 h4 hc hal
          simpa using this
        · rw [hl, h7]
          have := Dash.drive (os := os) (only := only) ha h2 h3 h4 h5 h6 hc hal
          simpa using this
    · split at h
      · cases h
      · rename_i ho
        obtain ⟨c, hc, h1⟩ := (dash_iff _).1 h
        rw [hl, h1, ← List.append_assoc]
        exact .alone (by simpa using ho) ha hc
  · intro h
    cases h with
    | alone ho ha hb =>
      rename_i a b
      rw [List.append_assoc, skip_append ha, skip_id (by simp)]
      have hp : parseCd ([45] ++ b) = none := by
        cases hp : parseCd ([45] ++ b) with
        | none => rfl
        | some p =>
          obtain ⟨cmd, scan⟩ := p
          obtain ⟨w, h1, h2, h3⟩ := cd_sound hp
          have h4 : ∃ t, [45] ++ b = w ++ t := by
            rcases h3 with ⟨b, -, -, h⟩ | ⟨b, d, b', -, -, -, -, h⟩
            · exact ⟨b ++ scan, by rw [h]; simp⟩
            · exact ⟨b ++ d ++ b' ++ scan, by rw [h]; simp⟩
          have : ∃ t, lower w = 99 :: t := by
            rcases h2 with h | h
            · exact ⟨[100], (h1.trans h).trans (by decide)⟩
            · exact ⟨[104, 100, 105, 114], (h1.trans h).trans (by decide)⟩
          obtain ⟨t, ht⟩ := this
          obtain ⟨y, w', h5, h6⟩ := lower_head ht
          obtain ⟨t', h7⟩ := h4
          rw [h5] at h7
          simp at h7
          rw [← h7.1] at h6
          exact absurd h6 (by decide)
      rw [hp]
      dsimp only
      rw [if_neg (by simp [ho]), dash_iff]
      exact ⟨b, hb, rfl⟩
    | plain ha hw hb hb0 hc hal =>
      rename_i a w b c
      rw [show a ++ w ++ b ++ [45] ++ c = a ++ (w ++ (b ++ ([45] ++ c))) by simp, skip_word ha hw]
      rw [show w ++ (b ++ ([45] ++ c)) = w ++ b ++ ([45] ++ c) by simp, cd_complete hw hb hb0]
      dsimp only
      rw [if_neg, dash_iff]
      · exact ⟨c, hc, rfl⟩
      · simp only [Bool.and_eq_true]
        rintro ⟨h1, h2⟩
        rw [hal h1] at h2
        cases h2
    | drive ha hw hb hd hb' hb0 hc hal =>
      rename_i a w b d b' c
      rw [show a ++ w ++ b ++ d ++ b' ++ [45] ++ c = a ++ (w ++ (b ++ (d ++ (b' ++ ([45] ++ c))))) by simp, skip_word ha hw]
      rw [show w ++ (b ++ (d ++ (b' ++ ([45] ++ c)))) = w ++ b ++ d ++ b' ++ ([45] ++ c) by simp, cd_drive hw hb hd hb' hb0]
      dsimp only
      rw [if_neg, dash_iff]
      · exact ⟨c, hc, rfl⟩
      · simp only [Bool.and_eq_true]
        rintro ⟨h1, h2⟩
        rw [hal h1] at h2
        cases h2

theorem split_dots : ∀ l : List Nat, ∃ n, l = List.replicate n 46 ++ l.dropWhile (· == 46)
  | [] => ⟨0, rfl⟩
  | c :: l => by
    rw [List.dropWhile_cons]
    split
    · rename_i h
      obtain ⟨n, hn⟩ := split_dots l
      refine ⟨n + 1, ?_⟩
      rw [List.replicate_succ, List.cons_append, ← hn]
      simp at h
      rw [h]
    · exact ⟨0, rfl⟩

theorem drop_dots : ∀ (n : Nat) (r : List Nat), (List.replicate n 46 ++ r).dropWhile (· == 46) = r.dropWhile (· == 46)
  | 0, _ => rfl
  | n + 1, r => by
    rw [List.replicate_succ, List.cons_append, List.dropWhile_cons, if_pos (by simp), drop_dots n r]

theorem dots_iff {n : Nat} (hn : 2 ≤ n) (t : List Nat) : numDots t = n ↔ Dots n t := by
  constructor
  · intro h
    obtain ⟨m, hm⟩ := split_dots t
    unfold numDots at h
    split at h
    · rename_i hd
      rw [hd, List.append_nil] at hm
      rw [hm, List.length_replicate] at h
      rw [h] at hm
      exact .inl hm
    · rename_i c hd
      split at h
      · rename_i hs
        rw [hd] at hm
        rw [hm] at h
        simp at h
        rw [h] at hm
        exact .inr ⟨c, isSep_iff.1 hs, hm⟩
      · omega
    · omega
  · rintro (rfl | ⟨c, hc, rfl⟩)
    · unfold numDots
      have := drop_dots n []
      rw [List.append_nil] at this
      rw [this]
      simp
    · unfold numDots
      have hc' : ¬ (c == 46) = true := by
        unfold IsSep at hc
        simp; omega
      rw [drop_dots, List.dropWhile_cons, if_neg hc']
      dsimp only
      rw [if_pos (isSep_iff.2 hc)]
      simp

theorem ups_iff (t : List Nat) : upDirs t = true ↔ Ups t := by
  constructor
  · fun_induction upDirs t with
    | case1 => exact fun _ => .one
    | case2 c r ih =>
      intro h
      simp only [Bool.and_eq_true] at h
      exact .more (isSep_iff.1 h.1) (ih h.2)
    | case3 => intro h; cases h
  · intro h
    induction h with
    | one => rfl
    | @more c r h1 h2 ih =>
      rw [List.cons_append, List.cons_append, List.cons_append, List.nil_append, upDirs, ih, isSep_iff.2 h1]
      rfl

theorem tilde_iff (os : Os) (t d : List Nat) : tilde os t = d ↔ Home os t d := by
  have key : Home os t (tilde os t) := by
    unfold tilde
    split
    · exact .home
    · split
      · rename_i h
        exact .below (isSep_iff.1 h)
      · rename_i h
        refine .other (by simp) ?_
        intro c r he
        simp at he
        rw [← he.1, ← isSep_iff]
        exact h
    · rename_i h1 h2
      exact .other h1 fun c r he => absurd he (h2 c r)
  constructor
  · rintro rfl
    exact key
  · intro h
    cases h with
    | home => rfl
    | below h => simp [tilde, isSep_iff.2 h]
    | other h1 h2 =>
      unfold tilde
      split
      · exact absurd rfl h1
      · rename_i c r
        rw [if_neg]
        rw [isSep_iff]
        exact h2 c r rfl
      · rfl

theorem past_plain {a b : Nat} {r : List Nat} (h : isSep b = false) : pastSsqs (a :: b :: r) = a :: b :: r := by
  unfold pastSsqs
  split
  · rename_i he
    simp at he
    obtain ⟨rfl, rfl, rfl⟩ := he
    simp [h]
  · rfl

theorem split_sep : ∀ l : List Nat, ∃ s, (∀ x ∈ s, IsSep x) ∧ l = s ++ l.dropWhile isSep ∧ ∀ c, (l.dropWhile isSep).head? = some c → ¬ IsSep c
  | [] => ⟨[], by simp, rfl, by simp⟩
  | c :: l => by
    rw [List.dropWhile_cons]
    split
    · rename_i h
      obtain ⟨s, h1, h2, h3⟩ := split_sep l
      refine ⟨c :: s, ?_, by rw [List.cons_append, ← h2], h3⟩
      intro x hx
      rcases List.mem_cons.1 hx with rfl | hx
      · exact isSep_iff.1 h
      · exact h1 x hx
    · rename_i h
      refine ⟨[], by simp, rfl, ?_⟩
      intro x hx
      simp at hx
      rw [← hx, ← isSep_iff]
      exact h

theorem drop_sep : ∀ (s r : List Nat), (∀ x ∈ s, IsSep x) → (∀ c, r.head? = some c → ¬ IsSep c) → (s ++ r).dropWhile isSep = r
  | [], r, _, h => by
    cases r with
    | nil => rfl
    | cons c r =>
      rw [List.nil_append, List.dropWhile_cons, if_neg]
      rw [isSep_iff]
      exact h c rfl
  | c :: s, r, h1, h2 => by
    rw [List.cons_append, List.dropWhile_cons, if_pos (isSep_iff.2 (h1 c (by simp))), drop_sep s r (fun x hx => h1 x (by simp [hx])) h2]

theorem past_cases (l : List Nat) : pastSsqs l = l ∨ ∃ a b d s r, IsSep a ∧ IsSep b ∧ IsSep d ∧ (∀ x ∈ s, IsSep x) ∧ l = [a, b, 63, d] ++ s ++ r ∧ pastSsqs l = r ∧
    ∀ c, r.head? = some c → ¬ IsSep c := by
  unfold pastSsqs
  split
  · rename_i a b d r
    split
    · rename_i h
      simp only [Bool.and_eq_true, isSep_iff] at h
      obtain ⟨s, h1, h2, h3⟩ := split_sep r
      right
      exact ⟨a, b, d, s, _, h.1.1, h.1.2, h.2, h1, (by rw [List.append_assoc, ← h2]; rfl), rfl, h3⟩
    · exact .inl rfl
  · exact .inl rfl

theorem past_long {a b d : Nat} {s r : List Nat} (ha : IsSep a) (hb : IsSep b) (hd : IsSep d) (hs : ∀ x ∈ s, IsSep x) (hr : ∀ c, r.head? = some c → ¬ IsSep c) :
    pastSsqs ([a, b, 63, d] ++ s ++ r) = r := by
  rw [List.append_assoc, List.cons_append, List.cons_append, List.cons_append, List.cons_append, List.nil_append, pastSsqs]
  rw [if_pos (by simp [isSep_iff.2 ha, isSep_iff.2 hb, isSep_iff.2 hd]), drop_sep s r hs hr]

theorem letter_sep {c : Nat} (h : 65 ≤ c ∧ c ≤ 90 ∨ 97 ≤ c ∧ c ≤ 122) : ¬ IsSep c := by unfold IsSep; omega

theorem drive_iff (l : List Nat) (c : Nat) : getDrive l = some [c, 58] ↔ Drive l c := by
  unfold getDrive
  constructor
  · intro h
    split at h
    · rename_i c' r hp
      split at h
      · rename_i hc
        simp at h
        subst h
        rcases past_cases l with h1 | ⟨a, b, d, s, r', h1, h2, h3, h4, h5, h6, -⟩
        · rw [h1] at hp
          subst hp
          exact .plain hc
        · rw [h6] at hp
          subst hp
          rw [h5]
          have := Drive.long (r := r) h1 h2 h3 h4 hc
          simpa using this
      · cases h
    · cases h
  · intro h
    cases h with
    | plain hc =>
      rw [List.cons_append, List.cons_append, List.nil_append, past_plain (by decide)]
      exact if_pos hc
    | @long a b d s _ r ha hb hd hs hc =>
      rw [List.append_assoc, past_long ha hb hd hs (by simp; exact letter_sep hc)]
      exact if_pos hc

theorem drive_form {l x : List Nat} (h : getDrive l = some x) : ∃ c, x = [c, 58] := by
  unfold getDrive at h
  split at h
  · split at h
    · simp at h; exact ⟨_, h.symm⟩
    · cases h
  · cases h

theorem colon_iff (l : List Nat) : hasColon l = true ↔ Colon l := by
  unfold hasColon
  constructor
  · intro h
    split at h
    · rename_i c r hp
      rcases past_cases l with h1 | ⟨a, b, d, s, r', h1, h2, h3, h4, h5, h6, h7⟩
      · rw [h1] at hp
        subst hp
        exact .plain
      · rw [h6] at hp
        subst hp
        rw [h5]
        have := Colon.long (r := r) h1 h2 h3 h4 (h7 c rfl)
        simpa using this
    · cases h
  · intro h
    cases h with
    | plain => rw [List.cons_append, List.cons_append, List.nil_append, past_plain (by decide)]; rfl
    | long ha hb hd hs hc => rw [List.append_assoc, past_long ha hb hd hs (by simpa using hc)]; rfl

theorem same_drive {c c' : Nat} : same [c, 58] [c', 58] = true ↔ Color.lower c = Color.lower c' := by
  rw [same_iff]
  simp [lower]

theorem cd_iff (os : Os) (dir cmd : List Nat) : makeCd os dir = cmd ↔ Cd os.cwd dir cmd := by
  have hsame : ∀ c, same [c, 58] ((getDrive os.cwd).getD []) = true ↔ ∃ c', Drive os.cwd c' ∧ Color.lower c = Color.lower c' := by
    intro c
    cases hd : getDrive os.cwd with
    | none =>
      constructor
      · intro h
        rw [same_iff] at h
        simp [lower] at h
      · rintro ⟨c', h1, -⟩
        rw [← drive_iff, hd] at h1
        cases h1
    | some x =>
      obtain ⟨y, rfl⟩ := drive_form hd
      rw [Option.getD_some, same_drive]
      constructor
      · exact fun h => ⟨y, (drive_iff _ _).1 hd, h⟩
      · rintro ⟨c', h1, h2⟩
        rw [← drive_iff, hd] at h1
        simp at h1
        rw [h1]; exact h2
  constructor
  · rintro rfl
    unfold makeCd
    split
    · rename_i x hx
      obtain ⟨c, rfl⟩ := drive_form hx
      split
      · rename_i hs
        refine .drive ((drive_iff _ _).1 hx) fun c' h1 h2 => ?_
        rw [(hsame c).2 ⟨c', h1, h2⟩] at hs
        cases hs
      · rename_i hs
        refine .here fun c' h1 => ?_
        rw [← drive_iff, hx] at h1
        simp at h1
        rw [← h1]
        apply (hsame c).1
        simpa using hs
    · rename_i hx
      refine .here fun c' h1 => ?_
      rw [← drive_iff, hx] at h1
      cases h1
  · intro h
    unfold makeCd
    cases h with
    | here h =>
      split
      · rename_i x hx
        obtain ⟨c, rfl⟩ := drive_form hx
        rw [if_neg]
        have := (hsame c).2 (h c ((drive_iff _ _).1 hx))
        simp [this]
      · rfl
    | @drive c h1 h2 =>
      rw [(drive_iff _ _).2 h1]
      dsimp only
      rw [if_pos]
      cases hs : same [c, 58] ((getDrive os.cwd).getD []) with
      | false => rfl
      | true =>
        obtain ⟨c', h3, h4⟩ := (hsame c).1 hs
        exact absurd h4 (h2 c' h3)

theorem backslashes_eq (d : List Nat) : backslashes d = d.map fun c => if c = 47 then 92 else c := by
  unfold backslashes
  apply List.map_congr_left
  intro c _
  by_cases h1 : c = 47
  · simp [h1, isSep]
  · by_cases h2 : c = 92
    · simp [h2, isSep]
    · rw [if_neg (by rw [isSep_iff]; unfold IsSep; omega), if_neg h1]

theorem last_append (a : List Nat) {b : List Nat} (h : b ≠ []) : (a ++ b).getLast? = b.getLast? := by
  rw [List.getLast?_append]
  cases b with
  | nil => exact absurd rfl h
  | cons x b => rw [List.getLast?_cons]; rfl

theorem sepEnd_iff (t : List Nat) : sepEnd t = true ↔ ∃ u c, t = u ++ [c] ∧ IsSep c := by
  unfold sepEnd
  constructor
  · intro h
    cases hl : t.getLast? with
    | none => rw [hl] at h; cases h
    | some c =>
      rw [hl] at h
      obtain ⟨u, hu⟩ := List.getLast?_eq_some_iff.1 hl
      exact ⟨u, c, hu, isSep_iff.1 h⟩
  · rintro ⟨u, c, rfl, hc⟩
    simp [isSep_iff.2 hc]

/-- The directory that a word stands for. -/
theorem enter_dots (os : Os) (mode : Mode) {n : Nat} (hn : 2 ≤ n) :
    enter os mode true (List.replicate (n - 1) (Color.bs "..\\")).flatten = (.chdir, some (makeCd os (backslashes (List.replicate (n - 1) (Color.bs "..\\")).flatten))) := by
  have h1 : sepEnd (List.replicate (n - 1) (Color.bs "..\\")).flatten = true := by
    rw [sepEnd_iff]
    obtain ⟨m, hm⟩ : ∃ m, n - 1 = m + 1 := ⟨n - 2, by omega⟩
    rw [hm]
    refine ⟨(List.replicate m (Color.bs "..\\")).flatten ++ [46, 46], 92, ?_, .inr rfl⟩
    rw [List.replicate_succ', List.flatten_append, List.append_assoc]
    congr 1
  have h2 : tilde os (List.replicate (n - 1) (Color.bs "..\\")).flatten = (List.replicate (n - 1) (Color.bs "..\\")).flatten := by
    obtain ⟨m, hm⟩ : ∃ m, n - 1 = m + 1 := ⟨n - 2, by omega⟩
    rw [hm, List.replicate_succ, List.flatten_cons, show Color.bs "..\\" = [46, 46, 92] by decide]
    rfl
  unfold enter
  simp only [h1, Bool.not_true, Bool.false_eq_true, and_false, if_false, h2, Bool.false_and]

theorem enter_dir (os : Os) (mode : Mode) (t : List Nat) (ht : ∀ n, 2 ≤ n → ¬ Dots n t) :
    (∃ d, Names os mode t d ∧ enter os mode false t = (.chdir, some (makeCd os (backslashes d)))) ∨
    ((¬ ∃ d, Names os mode t d) ∧ enter os mode false t = (.none, none)) := by
  have hchoice : ∀ t', (if t ≠ [126] ∧ !sepEnd t then (if upDirs t then some (t ++ [92]) else none) else some t) = some t' ↔
      ((t = [126] ∨ ∃ u c, t = u ++ [c] ∧ IsSep c) ∧ t' = t ∨ Ups t ∧ t' = t ++ [92]) := by
    intro t'
    rw [← sepEnd_iff, ← ups_iff]
    by_cases h1 : t = [126] ∨ sepEnd t = true
    · rw [if_neg (by
        rintro ⟨h2, h3⟩
        rcases h1 with h1 | h1
        · exact h2 h1
        · simp [h1] at h3)]
      have h2 : ¬ upDirs t = true := by
        intro h
        rcases h1 with h1 | h1
        · rw [h1] at h; simp [upDirs] at h
        · have : ∀ t, upDirs t = true → sepEnd t = false := by
            intro t h
            have := (ups_iff t).1 h
            induction this with
            | one => decide
            | @more c r _ h2 ih =>
              have hr : r ≠ [] := by rintro rfl; cases h2
              unfold sepEnd
              rw [last_append _ hr]
              exact ih ((ups_iff r).2 h2)
          rw [this t h] at h1
          cases h1
      simp [h1, h2]
      exact ⟨fun h => h.symm, fun h => h.symm⟩
    · rw [if_pos (by
        simp only [not_or] at h1
        exact ⟨h1.1, by simp [h1.2]⟩)]
      simp only [h1, false_and, false_or]
      split
      · rename_i h2
        simp [h2]
        exact ⟨fun h => h.symm, fun h => h.symm⟩
      · rename_i h2
        simp [h2]
  unfold enter
  dsimp only
  generalize (if t ≠ [126] ∧ !sepEnd t then (if upDirs t then some (t ++ [92]) else none) else some t) = o at hchoice
  cases o with
  | none =>
    right
    refine ⟨?_, rfl⟩
    rintro ⟨d, hd⟩
    cases hd with
    | dots hn h => exact ht _ hn h
    | dir _ h _ _ _ =>
      have := (hchoice _).2 h
      cases this
  | some t' =>
    dsimp only
    have ht' := (hchoice t').1 rfl
    have uniq : ∀ {d}, Names os mode t d → d = tilde os t' ∧ os.dir d = true ∧ (mode = .no_remote → os.remote d = true → os.noRemote = false ∧ ¬ Colon d) := by
      intro d hd
      cases hd with
      | dots hn h => exact absurd h (ht _ hn)
      | dir _ h1 h2 h3 h4 =>
        have := (hchoice _).2 h1
        cases this
        exact ⟨((tilde_iff _ _ _).2 h2).symm, h3, h4⟩
    split
    · rename_i hr
      right
      refine ⟨?_, rfl⟩
      rintro ⟨d, hd⟩
      obtain ⟨rfl, h2, h3⟩ := uniq hd
      simp only [Bool.not_false, Bool.true_and, Bool.and_eq_true, beq_iff_eq, Bool.or_eq_true, colon_iff] at hr
      obtain ⟨h4, h5⟩ := h3 hr.1.1 hr.1.2
      rcases hr.2 with h | h
      · exact h5 h
      · rw [h4] at h; cases h
    · rename_i hr
      split
      · rename_i hdir
        right
        refine ⟨?_, rfl⟩
        rintro ⟨d, hd⟩
        obtain ⟨rfl, h2, h3⟩ := uniq hd
        simp [h2] at hdir
      · rename_i hdir
        left
        refine ⟨tilde os t', .dir ht ht' ((tilde_iff _ _ _).1 rfl) (by simpa using hdir) ?_, rfl⟩
        intro hm hrem
        simp only [Bool.not_false, Bool.true_and, Bool.and_eq_true, beq_iff_eq, Bool.or_eq_true, colon_iff] at hr
        constructor
        · cases hn : os.noRemote with
          | false => rfl
          | true => exact absurd ⟨⟨hm, hrem⟩, .inr hn⟩ hr
        · intro hc
          exact hr ⟨⟨hm, hrem⟩, .inl hc⟩

theorem names_unique {os : Os} {mode : Mode} {t d d' : List Nat} (h : Names os mode t d) (h' : Names os mode t d') : d = d' := by
  cases h with
  | @dots n hn h1 =>
    cases h' with
    | @dots m hm h2 => rw [← (dots_iff hn t).2 h1, ← (dots_iff hm t).2 h2]
    | dir h2 => exact absurd h1 (h2 _ hn)
  | @dir t1 _ hn h1 h2 =>
    cases h' with
    | dots hm h3 => exact absurd h3 (hn _ hm)
    | @dir t2 _ _ h3 h4 =>
      have : t1 = t2 := by
        have key : ∀ {t}, Ups t → ¬ (t = [126] ∨ ∃ u c, t = u ++ [c] ∧ IsSep c) := by
          intro t h
          induction h with
          | one =>
            rintro (h | ⟨u, c, h, hc⟩)
            · simp at h
            · have := congrArg List.getLast? h
              simp at this
              rw [← this] at hc
              unfold IsSep at hc; omega
          | @more c r h1 h2 ih =>
            rintro (h | ⟨u, c', h, hc⟩)
            · simp at h
            · apply ih
              right
              have hr : r ≠ [] := by rintro rfl; cases h2
              have hl := congrArg List.getLast? h
              rw [last_append _ hr] at hl
              simp at hl
              obtain ⟨u', hu'⟩ := List.getLast?_eq_some_iff.1 hl
              exact ⟨u', c', hu', hc⟩
        rcases h1 with ⟨a1, rfl⟩ | ⟨a1, rfl⟩ <;> rcases h3 with ⟨a2, rfl⟩ | ⟨a2, rfl⟩
        · rfl
        · exact absurd a1 (key a2)
        · exact absurd a2 (key a1)
        · rfl
      subst this
      rw [← (tilde_iff _ _ _).2 h2, ← (tilde_iff _ _ _).2 h4]

theorem token_unique {os : Os} {line t t' : List Nat} (h : Token os line t) (h' : Token os line t') : t = t' := by
  rw [← token_iff] at h h'
  rw [h] at h'
  cases h'
  rfl

theorem intercept_go (os : Os) (line : List Nat) (mode : Mode) : Intercepts os line mode (intercept os line mode) := by
  have hm : (mode == .only_cd_chdir) = decide (mode = .only_cd_chdir) := by cases mode <;> decide
  unfold intercept
  rw [hm]
  split
  · rename_i h
    exact .prev ((cdDash_iff _ _ _).1 h)
  · rename_i h
    rw [cdDash_iff] at h
    split
    · rename_i ho
      exact .none h fun h' => absurd ho h'
    · rename_i ho
      split
      · rename_i ht
        refine .none h ?_
        rintro - ⟨t, d, h1, -⟩
        rw [← token_iff, ht] at h1
        cases h1
      · rename_i t ht
        rw [token_iff] at ht
        dsimp only
        have hchdir : ∀ {d}, Names os mode t d → Intercepts os line mode (.chdir, some (makeCd os (backslashes d))) := by
          intro d hd
          refine .chdir ?_ ho ht hd ?_
          · rw [decide_eq_false ho] at h; exact h
          · rw [← backslashes_eq]
            exact (cd_iff _ _ _).1 rfl
        split
        · rename_i hn
          rw [enter_dots os mode hn]
          exact hchdir (.dots hn ((dots_iff hn t).1 rfl))
        · rename_i hn
          rcases enter_dir os mode t (fun n h2 hd => by rw [← dots_iff h2] at hd; omega) with ⟨d, h1, h2⟩ | ⟨h1, h2⟩
          · rw [h2]; exact hchdir h1
          · rw [h2]
            refine .none h ?_
            rintro - ⟨t', d, h3, h4⟩
            rw [token_unique h3 ht] at h4
            exact h1 ⟨d, h4⟩

theorem intercept_unique {os : Os} {line : List Nat} {mode : Mode} {r r' : Result × Option (List Nat)} (h : Intercepts os line mode r) (h' : Intercepts os line mode r') : r = r' := by
  cases h with
  | prev h1 =>
    cases h' with
    | prev => rfl
    | chdir h2 h3 => rw [decide_eq_false h3] at h1; exact absurd h1 h2
    | none h2 => exact absurd h1 h2
  | chdir h1 h2 h3 h4 h5 =>
    cases h' with
    | prev h6 => rw [decide_eq_false h2] at h6; exact absurd h6 h1
    | chdir i1 i2 i3 i4 i5 =>
      have := token_unique h3 i3
      subst this
      have := names_unique h4 i4
      subst this
      rw [← (cd_iff _ _ _).2 h5, ← (cd_iff _ _ _).2 i5]
    | none _ h6 => exact absurd ⟨_, _, h3, h4⟩ (h6 h2)
  | none h1 h2 =>
    cases h' with
    | prev h3 => exact absurd h3 h1
    | chdir i1 i2 i3 i4 i5 => exact absurd ⟨_, _, i3, i4⟩ (h2 i2)
    | none => rfl

end Clink.Intercept
