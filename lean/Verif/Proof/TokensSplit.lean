import Verif.Proof.Tokens

namespace Clink.Tokens

open Utf (more next8 IsText specUtf8)
open Doskey Doskey.Spec Tokens.Spec

/-! Text and its bytes. -/

theorem spec_high {c b : Nat} (hc : 128 ≤ c) (hb : b ∈ specUtf8 c) : 128 ≤ b := by
  unfold specUtf8 at hb
  rw [if_neg (by omega)] at hb
  split at hb
  · simp at hb; omega
  · split at hb
    · simp at hb; omega
    · simp at hb; omega

theorem flat_ascii {a : List Nat} (h : ∀ b ∈ a, b < 128) : flat a = a := by
  induction a with
  | nil => rfl
  | cons c r ih => rw [flat_cons, spec_ascii (h c (by simp)), ih fun b hb => h b (List.mem_cons_of_mem _ hb)]; rfl

theorem flat_mem_ascii {v : List Nat} {b : Nat} (h : ∀ x ∈ flat v, x < 128) (hb : b ∈ v) : b < 128 := by
  by_cases hl : b < 128
  · exact hl
  · obtain ⟨x, hx⟩ := List.exists_mem_of_ne_nil _ (Utf.specUtf8_ne_nil b)
    have h1 := spec_high (by omega) hx
    have h2 := h x (by simp only [flat, List.mem_flatMap]; exact ⟨b, hb, hx⟩)
    omega

theorem flat_prefix {a v r : List Nat} (ha : ∀ b ∈ a, b < 128) (h : flat v = a ++ r) : ∃ v2, v = a ++ v2 ∧ r = flat v2 := by
  induction a generalizing v with
  | nil => exact ⟨v, rfl, h.symm⟩
  | cons b a ih =>
    have hb := ha b (by simp)
    cases v with
    | nil => simp [flat] at h
    | cons c v =>
      rw [flat_cons] at h
      by_cases hc : c < 128
      · rw [spec_ascii hc] at h
        simp only [List.cons_append, List.nil_append, List.cons.injEq] at h
        obtain ⟨rfl, h⟩ := h
        obtain ⟨v2, rfl, h2⟩ := ih (fun x hx => ha x (List.mem_cons_of_mem _ hx)) h
        exact ⟨v2, rfl, h2⟩
      · cases hs : specUtf8 c with
        | nil => exact absurd hs (Utf.specUtf8_ne_nil c)
        | cons x y =>
          have := spec_high (c := c) (b := x) (by omega) (by rw [hs]; simp)
          rw [hs] at h
          simp only [List.cons_append, List.cons.injEq] at h
          omega

theorem flat_suffix {a b : List Nat} (n : Nat) : ∀ w, b.length = n → (∀ x ∈ b, x < 128) → flat w = a ++ b → ∃ w1, w = w1 ++ b ∧ a = flat w1 := by
  induction n generalizing b with
  | zero =>
    intro w hn _ h
    obtain rfl := List.eq_nil_of_length_eq_zero hn
    exact ⟨w, by simp, by simpa using h.symm⟩
  | succ n ih =>
    intro w hn hb h
    rcases List.eq_nil_or_concat b with rfl | ⟨b', x, rfl⟩
    · simp at hn
    · rw [List.concat_eq_append] at *
      have hx := hb x (by simp)
      rcases List.eq_nil_or_concat w with rfl | ⟨w', c, rfl⟩
      · simp [flat] at h
      · rw [List.concat_eq_append] at *
        rw [flat_append] at h
        have hc1 : flat [c] = specUtf8 c := by simp [flat]
        rw [hc1, ← List.append_assoc] at h
        by_cases hc : c < 128
        · rw [spec_ascii hc] at h
          obtain ⟨h1, rfl⟩ := snoc_inj h
          obtain ⟨w1, rfl, rfl⟩ := ih w' (by simpa using hn) (fun y hy => hb y (by simp [hy])) h1
          exact ⟨w1, by simp, rfl⟩
        · exfalso
          rcases List.eq_nil_or_concat (specUtf8 c) with hs | ⟨y, z, hs⟩
          · exact Utf.specUtf8_ne_nil c hs
          · rw [List.concat_eq_append] at hs
            have := spec_high (c := c) (b := z) (by omega) (by rw [hs]; simp)
            rw [hs, ← List.append_assoc] at h
            obtain ⟨-, rfl⟩ := snoc_inj h
            omega

/-! Aliases. -/

theorem skipWord_flat (v : List Nat) (hv : ∀ x ∈ v, IsText x) :
    ∃ name t, v = name ++ t ∧ skipWord (flat v) = flat t ∧ (∀ c ∈ name, ¬ Blank c) ∧ (t = [] ∨ ∃ c r, t = c :: r ∧ Blank c) := by
  induction v with
  | nil => exact ⟨[], [], rfl, by unfold skipWord; rw [dif_neg (by decide)], by simp, .inl rfl⟩
  | cons c r ih =>
    unfold skipWord
    rw [dif_pos (more_cons hv), peek_cons hv, next_cons hv]
    by_cases hb : c = 32 ∨ c = 9
    · rw [if_pos hb]
      exact ⟨[], c :: r, rfl, rfl, by simp, .inr ⟨c, r, rfl, hb⟩⟩
    · rw [if_neg hb]
      obtain ⟨name, t, rfl, h1, h2, h3⟩ := ih fun x hx => hv x (List.mem_cons_of_mem _ hx)
      refine ⟨c :: name, t, rfl, h1, ?_, h3⟩
      intro d hd
      rcases List.mem_cons.1 hd with rfl | hd
      · exact hb
      · exact h2 d hd

theorem advance_flat (n : Nat) (v : List Nat) (hv : ∀ x ∈ v, IsText x) : advance n (flat v) = flat (v.drop n) := by
  induction n generalizing v with
  | zero => rfl
  | succ n ih =>
    rw [advance]
    cases v with
    | nil =>
      have h0 : next (flat []) = flat [] := by decide
      rw [h0, ih [] (by simp)]; simp
    | cons c r =>
      rw [next_cons hv, ih r fun x hx => hv x (List.mem_cons_of_mem _ hx)]
      rfl

theorem inv_alias : Inv true { anyText := true, cmd := (((CmdState.mk [] false true false true).clear true).test 255 .txt).2 } [] where
  mode := rfl
  quote := by simp
  state := .inl rfl
  forced := by constructor <;> simp
  any := by simp
  text := fun _ => .inl rfl
  cmd := by
    simp only [if_true]
    decide
  good := by intro x s y he; simp at he

theorem inv_start : Inv false { cmd := (CmdState.mk [] false true false true).clear true } [] where
  mode := rfl
  quote := by simp
  state := .inl rfl
  forced := by constructor <;> simp
  any := fun _ => ⟨rfl, by intro x s y he; simp at he⟩
  text := by simp
  cmd := by
    refine ⟨⟨rfl, fun _ => ⟨by simp [CmdState.clear], .inl ⟨rfl, by intro x s y he; simp at he, by simp [St.low]⟩⟩⟩, ?_, ?_⟩
    · intro p w he _ _
      obtain ⟨rfl, rfl⟩ := List.append_eq_nil_iff.1 he.symm
      exact ⟨rfl, rfl, rfl, .inr rfl, by simp [IsRem]⟩
    · rintro ⟨p, w, d, r, he, -⟩
      simp at he
  good := by intro x s y he; simp at he

theorem alias_word {lookup : Lookup} {n t name t' : List Nat} (he : name ++ t = n ++ t') (hnb : ∀ c ∈ name, ¬ Blank c)
    (htb : t = [] ∨ ∃ c r, t = c :: r ∧ Blank c) (h : IsAlias lookup n t') : n = name := by
  obtain ⟨-, h1, h2, -⟩ := h
  rcases List.append_eq_append_iff.1 he with ⟨a, rfl, e⟩ | ⟨a, rfl, e⟩
  · cases a with
    | nil => simp
    | cons x a =>
      rcases htb with h | ⟨c, r, h, hb⟩ <;> rw [h] at e <;> simp at e
      exact absurd (e.1 ▸ hb) (h1 x (by simp))
  · cases a with
    | nil => simp
    | cons x a => exact absurd (h2 x _ e) (hnb x (by simp))

theorem scan_flat {lookup : Lookup} (hl : AsciiNames lookup) {text v : List Nat} (hv : ∀ x ∈ v, IsText x) (ht : flat v <:+ text) :
    ∃ w v', v = w ++ v' ∧ scanCommand lookup text (flat v) = flat v' ∧ Command lookup w v' ∧ (v' = [] ∨ ∃ c r, v' = c :: r ∧ IsSep c) := by
  obtain ⟨name, t, rfl, hsk, hnb, htb⟩ := skipWord_flat v hv
  have hbt : between (flat (name ++ t)) (skipWord (flat (name ++ t))) = flat name := by
    rw [hsk]; simp [between, flat_append]
  unfold scanCommand
  by_cases hn : isAliasWord lookup (flat (name ++ t)) = 0
  · simp only [hn, ne_eq, not_true_eq_false, if_false]
    obtain ⟨v', h1, w, h2, h3, h4⟩ := cmdLoop_flat text false _ _ [] (name ++ t) (Nat.le_refl _) hv ht inv_start
    refine ⟨w, v', h2, h1, ⟨[], w, rfl, .inr ⟨rfl, ?_⟩, ?_, ?_⟩, ?_⟩
    · intro n t' he hal
      rw [← h2] at he
      obtain rfl := alias_word he hnb htb hal
      obtain ⟨hne, -, -, b, hlk, hb⟩ := hal
      unfold isAliasWord at hn
      simp only [hbt] at hn
      have hf : flat n ≠ [] := by
        intro hh
        cases n with
        | nil => exact hne rfl
        | cons x n =>
          have := more_cons (c := x) (r := n) fun y hy => hv y (by simp only [List.mem_append]; exact .inl hy)
          rw [hh] at this; simp [more] at this
      rw [if_neg hf, hlk] at hn
      cases b with
      | nil => exact hb rfl
      | cons x b => exact hf (List.eq_nil_of_length_eq_zero hn)
    · intro x s y he hs hm
      rcases h3 x s y (by simpa using he) hs hm with h | h
      · exact .inl h
      · exact .inr ⟨rfl, h.2⟩
    · rintro s r rfl
      rcases h4 with h | ⟨c, r, h, hs, hm, hp, hrem⟩
      · simp at h
      · obtain ⟨rfl, -⟩ := List.cons.inj h
        exact ⟨by simpa using hm, by simpa using hp, fun _ => by simpa using hrem rfl⟩
    · rcases h4 with h | ⟨c, r, h, hs, -⟩
      · exact .inl h
      · exact .inr ⟨c, r, h, hs⟩
  · simp only [hn, ne_eq, not_false_eq_true, if_true]
    have hbody : flat name ≠ [] ∧ (∃ b, lookup (flat name) = some b ∧ b ≠ []) ∧ isAliasWord lookup (flat (name ++ t)) = (flat name).length := by
      unfold isAliasWord at hn ⊢
      simp only [hbt] at hn ⊢
      split at hn
      · simp at hn
      · rename_i h0
        rw [if_neg h0]
        split at hn
        · rename_i b bs hlk
          rw [hlk]
          exact ⟨h0, ⟨_, rfl, by simp⟩, rfl⟩
        · simp at hn
    obtain ⟨hne, ⟨b, hlk, hb⟩, hlen⟩ := hbody
    have hascii : ∀ x ∈ flat name, x < 128 := hl _ (by rw [hlk]; simp)
    have hnm : ∀ x ∈ name, x < 128 := fun x hx => flat_mem_ascii hascii hx
    rw [hlen, advance_flat _ _ hv, flat_ascii hnm, List.drop_left]
    have hvt : ∀ x ∈ t, IsText x := fun x hx => hv x (by simp [hx])
    have htt : flat t <:+ text := List.IsSuffix.trans ⟨flat name, by rw [flat_append]⟩ ht
    obtain ⟨v', h1, w, rfl, h3, h4⟩ := cmdLoop_flat text true _ _ [] t (Nat.le_refl _) hvt htt inv_alias
    have hne0 : name ≠ [] := by rintro rfl; exact hne rfl
    refine ⟨name ++ w, v', by simp, h1, ⟨name, w, rfl, .inl ⟨hne0, hnb, ?_, b, hlk, hb⟩, ?_, ?_⟩, ?_⟩
    · intro c r he
      rcases htb with h | ⟨c', r', h, hb⟩ <;> rw [h] at he <;> simp at he
      exact he.1 ▸ hb
    · intro x s y he hs hm
      rcases h3 x s y (by simpa using he) hs hm with h | h
      · exact .inl h
      · simp at h
    · rintro s r rfl
      rcases h4 with h | ⟨c, r, h, hs, hm, hp, -⟩
      · simp at h
      · obtain ⟨rfl, -⟩ := List.cons.inj h
        exact ⟨by simpa using hm, by simpa using hp, fun hh => absurd hh hne0⟩
    · rcases h4 with h | ⟨c, r, h, hs, -⟩
      · exact .inl h
      · exact .inr ⟨c, r, h, hs⟩

/-! Parentheses. -/

theorem parenLoop_flat (k : Nat) : ∀ (v pre : List Nat) (n : Nat), v.length ≤ k → (∀ x ∈ v, IsText x) → Skippable pre → 40 ∉ pre →
    ∃ x v2, pre ++ v = x ++ v2 ∧ (parenLoop (flat v) (flat (pre ++ v)) n).1 = flat v2 ∧ Skippable x ∧
      (parenLoop (flat v) (flat (pre ++ v)) n).2 = n + x.count 40 ∧ (40 ∉ x → x = []) := by
  induction k with
  | zero =>
    intro v pre n hk hv hp h40
    obtain rfl : v = [] := List.eq_nil_of_length_eq_zero (by omega)
    unfold parenLoop
    rw [dif_neg (by decide)]
    exact ⟨[], pre ++ [], rfl, rfl, by simp [Skippable], by simp, by simp⟩
  | succ k ih =>
    intro v pre n hk hv hp h40
    cases v with
    | nil =>
      unfold parenLoop
      rw [dif_neg (by decide)]
      exact ⟨[], pre ++ [], rfl, rfl, by simp [Skippable], by simp, by simp⟩
    | cons c r =>
      have hr : ∀ x ∈ r, IsText x := fun x hx => hv x (List.mem_cons_of_mem _ hx)
      unfold parenLoop
      rw [dif_pos (more_cons hv), peek_cons hv, next_cons hv]
      by_cases h1 : c = 40
      · subst h1
        rw [if_pos rfl]
        have key : ∃ z r2, r = z ++ r2 ∧ (z = [] ∨ z = [32] ∨ z = [64]) ∧
            (if more (flat r) = true ∧ (peek (flat r) = 32 ∨ peek (flat r) = 64) then next (flat r) else flat r) = flat r2 := by
          split
          · rename_i hh
            cases r with
            | nil => simp [flat, more] at hh
            | cons d r =>
              rw [peek_cons hr] at hh
              rw [next_cons hr]
              refine ⟨[d], r, rfl, ?_, rfl⟩
              rcases hh.2 with rfl | rfl <;> simp
          · exact ⟨[], r, rfl, .inl rfl, rfl⟩
        obtain ⟨z, r2, rfl, hz, hif⟩ := key
        simp only [hif]
        obtain ⟨x, v2, hx1, hx2, hx3, hx4, -⟩ := ih r2 [] (n + 1) (by simp at hk; omega) (fun x hx => hr x (by simp [hx])) (by simp [Skippable]) (by simp)
        rw [List.nil_append] at hx1 hx2 hx4
        have hzc : z.count 40 = 0 := by rcases hz with rfl | rfl | rfl <;> decide
        have hpc : pre.count 40 = 0 := List.count_eq_zero.2 h40
        refine ⟨pre ++ 40 :: z ++ x, v2, by simp [hx1], hx2, ?_, ?_, by simp⟩
        · intro y hy
          simp only [List.mem_append, List.mem_cons] at hy
          rcases hy with (h | h | h) | h
          · exact hp y h
          · simp [h]
          · rcases hz with rfl | rfl | rfl <;> simp at h <;> simp [h]
          · exact hx3 y h
        · rw [hx4]
          simp only [List.count_append, List.count_cons_self, hzc, hpc]
          omega
      · rw [if_neg h1]
        by_cases h2 : c = 32 ∨ c = 64
        · rw [if_pos h2]
          obtain ⟨x, v2, hx1, hx2, hx3, hx4, hx5⟩ := ih r (pre ++ [c]) n (by simp at hk; omega) hr
            (by intro y hy; simp only [List.mem_append, List.mem_singleton] at hy; rcases hy with h | rfl; exact hp y h; rcases h2 with h | h <;> simp [h])
            (by simp only [List.mem_append, List.mem_singleton, not_or]; exact ⟨h40, fun e => h1 e.symm⟩)
          have he : pre ++ [c] ++ r = pre ++ c :: r := by simp
          rw [he] at hx1 hx2 hx4
          exact ⟨x, v2, hx1, hx2, hx3, hx4, hx5⟩
        · rw [if_neg h2]
          exact ⟨[], pre ++ c :: r, rfl, rfl, by simp [Skippable], by simp, by simp⟩

theorem skipParens_flat (lookup : Lookup) (fe : Bool) (v : List Nat) (hv : ∀ x ∈ v, IsText x) :
    ∃ x v2, v = x ++ v2 ∧ (skipParens lookup fe (flat v)).1 = flat v2 ∧ Skippable x ∧ (skipParens lookup fe (flat v)).2 = x.count 40 ∧
      (40 ∉ x → x = []) := by
  unfold skipParens
  split
  · exact ⟨[], v, rfl, rfl, by simp [Skippable], rfl, by simp⟩
  · obtain ⟨x, v2, h1, h2, h3, h4, h5⟩ := parenLoop_flat _ v [] 0 (Nat.le_refl _) hv (by simp [Skippable]) (by simp)
    exact ⟨x, v2, by simpa using h1, by simpa using h2, h3, by simpa using h4, h5⟩

theorem start_flat (lookup : Lookup) (enh : Bool) {text v : List Nat} (hv : ∀ x ∈ v, IsText x)
    (hs : (flat v).length ≠ text.length → ∃ s r, v = s :: r ∧ IsSep s) :
    ∃ o v2, v = o ++ v2 ∧ (commandStart lookup enh text (flat v)).1 = flat v2 ∧
      Opening (decide ((flat v).length = text.length)) o v2 ∧ (commandStart lookup enh text (flat v)).2 = o.count 40 := by
  by_cases hf : (flat v).length = text.length
  · obtain ⟨x, v2, h1, h2, h3, h4, h5⟩ := skipParens_flat lookup true v hv
    refine ⟨x, v2, h1, ?_, ?_, ?_⟩
    · simp [commandStart, hf, h2]
    · simp only [hf, decide_true, Opening, if_true]
      exact ⟨h3, fun h => .inl (h5 h)⟩
    · simp [commandStart, hf, h4]
  · obtain ⟨s, r, rfl, hsep⟩ := hs hf
    have hr : ∀ x ∈ r, IsText x := fun x hx => hv x (List.mem_cons_of_mem _ hx)
    have hs40 : s ≠ 40 := by unfold IsSep at hsep; omega
    -- the separator
    have hsk : ∃ q r2, s :: r = q ++ r2 ∧ skipSeparator (flat (s :: r)) = flat r2 ∧ (q = [s, s] ∨ q = [s] ∧ r2.head? ≠ some s) := by
      unfold skipSeparator
      rw [peek_cons hv, next_cons hv, if_pos (show s = 38 ∨ s = 124 from hsep)]
      simp only
      cases r with
      | nil =>
        have h0 : peek (flat []) = 0 := by decide
        rw [h0, if_neg (by unfold IsSep at hsep; omega)]
        exact ⟨[s], [], rfl, rfl, .inr ⟨rfl, by simp⟩⟩
      | cons d r =>
        rw [peek_cons hr, next_cons hr]
        by_cases hd : d = s
        · subst hd; rw [if_pos rfl]; exact ⟨[d, d], r, rfl, rfl, .inl rfl⟩
        · rw [if_neg hd]; exact ⟨[s], d :: r, rfl, rfl, .inr ⟨rfl, by simpa using hd⟩⟩
    obtain ⟨q, r2, he, hq, hq2⟩ := hsk
    have hr2 : ∀ x ∈ r2, IsText x := fun x hx => hv x (by rw [he]; simp [hx])
    obtain ⟨x, v2, h1, h2, h3, h4, h5⟩ := skipParens_flat lookup enh r2 hr2
    have hq40 : q.count 40 = 0 := by
      rw [List.count_eq_zero]
      rcases hq2 with rfl | ⟨rfl, -⟩ <;> simp <;> omega
    have hopen : ∀ sp v3, r2 = sp ++ v3 → Skipped false sp → Opening false (q ++ sp) v3 := by
      intro sp v3 hsp hsk
      simp only [Opening, Bool.false_eq_true, if_false]
      refine ⟨s, sp, hsep, hsk, ?_⟩
      rcases hq2 with rfl | ⟨rfl, hh⟩
      · exact .inl rfl
      · exact .inr ⟨rfl, by rw [← hsp]; exact hh⟩
    simp only [commandStart, hf, decide_false, Bool.false_eq_true, if_false, hq, Bool.false_or]
    split
    · rename_i hc
      obtain ⟨-, hz, hm, hp⟩ := hc
      rw [h4] at hz
      obtain rfl := h5 (List.count_eq_zero.1 hz)
      rw [List.nil_append] at h1
      subst h1
      rw [h2] at hm hp ⊢
      cases r2 with
      | nil => simp [flat, more] at hm
      | cons d r3 =>
        rw [peek_cons hr2] at hp
        subst hp
        refine ⟨q ++ [32], r3, by rw [he]; simp, next_cons hr2, hopen _ _ rfl ⟨by simp [Skippable], fun _ => .inr ⟨rfl, rfl⟩⟩, ?_⟩
        simp [h4, hq40]
    · refine ⟨q ++ x, v2, by rw [he, h1]; simp, h2, hopen _ _ h1 ⟨h3, fun h => .inl (h5 h)⟩, ?_⟩
      simp [h4, hq40]

/-! Trimming. -/

def TrimOk (p : Nat) (l : List Nat) : Prop := (∀ x ∈ l, x = 41 ∨ x = 32) ∧ l.count 41 ≤ p

theorem TrimOk.suffix {p : Nat} {l m : List Nat} (h : TrimOk p l) (hs : m <:+ l) : TrimOk p m :=
  ⟨fun x hx => h.1 x (hs.mem hx), Nat.le_trans (hs.sublist.count_le 41) h.2⟩

theorem trimLoop_ok (start : List Nat) (off e p0 : Nat) (he : e ≤ start.length) (n : Nat) : ∀ (ret p : Nat), off ≤ n → n ≤ ret → ret ≤ e →
    (∀ x ∈ (start.take e).drop n, x = 41 ∨ x = 32) → ((start.take e).drop n).count 41 + p ≤ p0 →
    off ≤ trimLoop start off n ret p ∧ trimLoop start off n ret p ≤ e ∧ TrimOk p0 ((start.take e).drop (trimLoop start off n ret p)) := by
  induction n with
  | zero =>
    intro ret p h1 h2 h3 h4 h5
    simp only [trimLoop]
    refine ⟨by omega, h3, ?_⟩
    exact TrimOk.suffix (p := p0) (l := (start.take e).drop 0) ⟨h4, by omega⟩ (by rw [List.drop_zero]; exact List.drop_suffix _ _)
  | succ n ih =>
    intro ret p h1 h2 h3 h4 h5
    have hsuf : TrimOk p0 ((start.take e).drop ret) :=
      TrimOk.suffix (l := (start.take e).drop (n + 1)) ⟨h4, by omega⟩ (by
        have : (start.take e).drop ret = ((start.take e).drop (n + 1)).drop (ret - (n + 1)) := by rw [List.drop_drop]; congr 1; omega
        rw [this]; exact List.drop_suffix _ _)
    have hlt : n < (start.take e).length := by rw [List.length_take]; omega
    have hcons : (start.take e).drop n = start.getD n 0 :: (start.take e).drop (n + 1) := by
      rw [List.drop_eq_getElem_cons hlt]
      congr 1
      rw [List.getElem_take]
      rw [List.getD_eq_getElem?_getD, List.getElem?_eq_getElem (by omega)]; rfl
    rw [trimLoop]
    split
    · rename_i hc
      split
      · rename_i h41
        refine ih n (p - 1) (by omega) (Nat.le_refl _) (by omega) ?_ ?_
        · rw [hcons, h41]; intro x hx; rcases List.mem_cons.1 hx with rfl | hx; exact .inl rfl; exact h4 x hx
        · rw [hcons, h41]; simp; omega
      · split
        · exact ⟨by omega, h3, hsuf⟩
        · rename_i h41 h32
          have h32 : start.getD n 0 = 32 := by simpa using h32
          refine ih ret p (by omega) (by omega) h3 ?_ ?_
          · rw [hcons, h32]; intro x hx; rcases List.mem_cons.1 hx with rfl | hx; exact .inr rfl; exact h4 x hx
          · rw [hcons, h32]; simp; omega
    · exact ⟨by omega, h3, hsuf⟩

theorem trimParens_ok (start : List Nat) (off e p : Nat) (h : off ≤ e) (he : e ≤ start.length) :
    off ≤ trimParens start off e p ∧ trimParens start off e p ≤ e ∧ TrimOk p ((start.take e).drop (trimParens start off e p)) := by
  apply trimLoop_ok start off e p he e e p h (Nat.le_refl _) (Nat.le_refl _)
  · simp
  · simp

/-! Progress and order, for arbitrary bytes. -/

theorem cmdLoop_le (text : List Nat) (s : CmdLoop) (l : List Nat) : (cmdLoop text s l).length ≤ l.length := by
  fun_induction cmdLoop text s l with
  | case1 s l h hq ih => exact Nat.le_trans ih (next_le _)
  | case2 s l h hq e he =>
    unfold plainChar at he
    split at he
    · simp only [Sum.inl.injEq] at he; subst he; simp
    · split at he
      · simp only [Sum.inl.injEq] at he; subst he
        have h1 := afterChar_le text s (peek l) (next l)
        have h2 := next_lt h
        simp only [List.length_drop]
        omega
      · simp at he
  | case3 s l h hq s' he ih =>
    have h1 := afterChar_le text s (peek l) (next l)
    have h2 := next_lt h
    omega
  | case4 => exact Nat.le_refl _

theorem advance_le (n : Nat) (l : List Nat) : (advance n l).length ≤ l.length := by
  induction n generalizing l with
  | zero => exact Nat.le_refl _
  | succ n ih => exact Nat.le_trans (ih _) (next_le _)

theorem newState_start (cmd : CmdState) (c : Nat) : ({ cmd := cmd } : CmdLoop).newState c ≠ .break_ := by
  have hraw : ({ cmd := cmd } : CmdLoop).rawState c ≠ .break_ := by
    unfold CmdLoop.rawState
    split
    · decide
    · rename_i h
      intro hb
      apply h
      refine ⟨hb, ?_⟩
      simp only [CmdLoop.newAny, Bool.false_or, CmdLoop.textChar, decide_eq_false_iff_not]
      intro hh
      rw [hb] at hh
      simp at hh
  unfold CmdLoop.newState
  split
  · rename_i he
    exfalso
    revert he
    unfold CmdLoop.rawState
    simp only
    split
    · decide
    · cases inputType c <;> decide
  · exact hraw

theorem scan_lt (lookup : Lookup) (text l : List Nat) (h : more l = true) : (scanCommand lookup text l).length < l.length := by
  unfold scanCommand
  by_cases hn : isAliasWord lookup l = 0
  · simp only [hn, ne_eq, not_true_eq_false, if_false]
    rw [cmdLoop, dif_pos h]
    simp only [Bool.false_eq_true, if_false]
    unfold plainChar
    split
    · rename_i e he
      split at he
      · simp only [Sum.inl.injEq] at he; subst he
        have := next_lt h
        simp; omega
      · rw [if_neg (newState_start _ _)] at he
        simp at he
    · refine Nat.lt_of_le_of_lt (cmdLoop_le _ _ _) ?_
      exact Nat.lt_of_le_of_lt (afterChar_le _ _ _ _) (next_lt h)
  · simp only [hn, ne_eq, not_false_eq_true, if_true]
    refine Nat.lt_of_le_of_lt (cmdLoop_le _ _ _) ?_
    obtain ⟨m, hm⟩ := Nat.exists_eq_succ_of_ne_zero hn
    rw [hm, advance]
    exact Nat.lt_of_le_of_lt (advance_le _ _) (next_lt h)

theorem skipSeparator_suffix (l : List Nat) : skipSeparator l <:+ l := by
  unfold skipSeparator
  split
  · simp only
    split
    · exact (next_suffix _).trans (next_suffix _)
    · exact next_suffix _
  · exact List.suffix_refl _

theorem commandStart_suffix (lookup : Lookup) (enh : Bool) (text l : List Nat) : (commandStart lookup enh text l).1 <:+ l := by
  unfold commandStart
  simp only
  have h : (if (decide (l.length = text.length)) = true then l else skipSeparator l) <:+ l := by
    split
    · exact List.suffix_refl _
    · exact skipSeparator_suffix l
  generalize (if (decide (l.length = text.length)) = true then l else skipSeparator l) = m at *
  split
  · exact (next_suffix _).trans ((skipParens_suffix _ _ _).trans h)
  · exact (skipParens_suffix _ _ _).trans h

theorem scan_le (lookup : Lookup) (text l : List Nat) : (scanCommand lookup text l).length ≤ l.length := by
  unfold scanCommand
  simp only
  split
  · exact Nat.le_trans (cmdLoop_le _ _ _) (advance_le _ _)
  · exact cmdLoop_le _ _ _

/-- Each command makes progress. -/
theorem nextCommand_lt (lookup : Lookup) (enh : Bool) (text l : List Nat) (h : more l = true) :
    (nextCommand lookup enh text l).2.2.length < l.length := by
  have hs := commandStart_suffix lookup enh text l
  simp only [nextCommand]
  generalize (commandStart lookup enh text l).1 = p at *
  by_cases hm : more p = true
  · exact Nat.lt_of_lt_of_le (scan_lt _ _ _ hm) hs.length_le
  · refine Nat.lt_of_le_of_lt (scan_le _ _ _) ?_
    rcases Nat.lt_or_ge p.length l.length with h1 | h1
    · exact h1
    · rw [hs.eq_of_length (Nat.le_antisymm hs.length_le h1)] at hm
      exact absurd h hm

theorem nextCommand_ordered (lookup : Lookup) (enh : Bool) (text l : List Nat) (hl : l.length ≤ text.length) :
    let r := nextCommand lookup enh text l
    text.length - l.length ≤ r.1 ∧ r.1 + r.2.1 ≤ text.length - r.2.2.length := by
  have hs := (commandStart_suffix lookup enh text l).length_le
  simp only [nextCommand]
  generalize (commandStart lookup enh text l).1 = p at *
  generalize (commandStart lookup enh text l).2 = k
  have he := scan_le lookup text p
  have ht := trimParens_ok text (text.length - p.length) (text.length - (scanCommand lookup text p).length) k (by omega) (by omega)
  omega

theorem ranges_some (lookup : Lookup) (enh : Bool) (text l : List Nat) : l.length ≤ text.length →
    ∃ rs, ranges lookup enh text l = some rs ∧ ∀ pos, pos ≤ text.length - l.length → Ordered text.length pos rs := by
  fun_induction ranges lookup enh text l with
  | case1 l h r hr ih =>
    intro hl
    have ho := nextCommand_ordered lookup enh text l hl
    obtain ⟨rs, h1, h2⟩ := ih (Nat.le_of_lt (Nat.lt_of_lt_of_le hr hl))
    refine ⟨(r.1, r.2.1) :: rs, by rw [h1]; rfl, fun pos hp => ⟨?_, ?_, h2 _ ?_⟩⟩
    · exact Nat.le_trans hp ho.1
    · exact Nat.le_trans ho.2 (Nat.sub_le _ _)
    · exact ho.2
  | case2 l h r hr => exact absurd (nextCommand_lt lookup enh text l h) hr
  | case3 l h =>
    intro _
    exact ⟨[], rfl, fun _ _ => True.intro⟩

/-! The split. -/

theorem next_flat_split {lookup : Lookup} (hl : AsciiNames lookup) (enh : Bool) {text v : List Nat} (hv : ∀ x ∈ v, IsText x) (ht : flat v <:+ text)
    (hs : (flat v).length ≠ text.length → ∃ s r, v = s :: r ∧ IsSep s) :
    ∃ o cmd cl v', v = o ++ (cmd ++ cl) ++ v' ∧
      nextCommand lookup enh text (flat v) = (text.length - (flat v).length + (flat o).length, (flat cmd).length, flat v') ∧
      Opening (decide ((flat v).length = text.length)) o (cmd ++ cl ++ v') ∧ Command lookup (cmd ++ cl) v' ∧ Closing o cl ∧
      (v' = [] ∨ ∃ s r, v' = s :: r ∧ IsSep s) := by
  obtain ⟨o, v2, rfl, h1, h2, h3⟩ := start_flat lookup enh hv hs
  have hv2 : ∀ x ∈ v2, IsText x := fun x hx => hv x (by simp [hx])
  have ht2 : flat v2 <:+ text := List.IsSuffix.trans ⟨flat o, by rw [flat_append]⟩ ht
  obtain ⟨w, v', rfl, h4, h5, h6⟩ := scan_flat hl hv2 ht2
  obtain ⟨pre, hpre⟩ := ht
  simp only [flat_append] at hpre
  have hlen : text.length = pre.length + ((flat o).length + ((flat w).length + (flat v').length)) := by
    rw [← hpre]; simp
  have hoff : text.length - (flat (w ++ v')).length = pre.length + (flat o).length := by
    rw [flat_append, List.length_append]; omega
  have hend : text.length - (flat v').length = pre.length + (flat o).length + (flat w).length := by omega
  obtain ⟨t1, t2, t3⟩ := trimParens_ok text (pre.length + (flat o).length) (pre.length + (flat o).length + (flat w).length) (o.count 40) (by omega) (by omega)
  have hseg : (text.take (pre.length + (flat o).length + (flat w).length)).drop
      (trimParens text (pre.length + (flat o).length) (pre.length + (flat o).length + (flat w).length) (o.count 40)) =
      (flat w).drop (trimParens text (pre.length + (flat o).length) (pre.length + (flat o).length + (flat w).length) (o.count 40) - (pre.length + (flat o).length)) := by
    generalize trimParens text (pre.length + (flat o).length) (pre.length + (flat o).length + (flat w).length) (o.count 40) = k at *
    have htext : text = (pre ++ flat o) ++ flat w ++ flat v' := by rw [← hpre]; simp
    have htake : text.take (pre.length + (flat o).length + (flat w).length) = (pre ++ flat o) ++ flat w := by
      rw [htext]
      exact List.take_left' (by simp; omega)
    rw [htake, List.drop_append, List.drop_eq_nil_of_le (by simp; omega)]
    simp
  have hstart : nextCommand lookup enh text (flat (o ++ (w ++ v'))) =
      (pre.length + (flat o).length,
        trimParens text (pre.length + (flat o).length) (pre.length + (flat o).length + (flat w).length) (o.count 40) - (pre.length + (flat o).length), flat v') := by
    simp only [nextCommand, h1, h3, h4, hoff, hend]
  rw [hseg] at t3
  rw [hstart]
  generalize trimParens text (pre.length + (flat o).length) (pre.length + (flat o).length + (flat w).length) (o.count 40) = k at *
  obtain ⟨b, hb⟩ : ∃ b, b = (flat w).drop (k - (pre.length + (flat o).length)) := ⟨_, rfl⟩
  rw [← hb] at t3
  have hsplit : flat w = (flat w).take (k - (pre.length + (flat o).length)) ++ b := by rw [hb]; exact (List.take_append_drop _ _).symm
  obtain ⟨cmd, rfl, hcmd⟩ := flat_suffix b.length w rfl (fun x hx => by rcases t3.1 x hx with h | h <;> omega) hsplit
  have hlc : (flat cmd).length = k - (pre.length + (flat o).length) := by
    rw [← hcmd, List.length_take]
    omega
  refine ⟨o, cmd, b, v', by simp, ?_, h2, h5, t3, h6⟩
  rw [hlc, flat_append, List.length_append, flat_append (cmd ++ b), List.length_append]
  congr 1
  omega

theorem ranges_split {lookup : Lookup} (hl : AsciiNames lookup) (enh : Bool) (text : List Nat) (n : Nat) : ∀ v : List Nat, (flat v).length ≤ n →
    (∀ x ∈ v, IsText x) → flat v <:+ text → ((flat v).length ≠ text.length → v = [] ∨ ∃ s r, v = s :: r ∧ IsSep s) →
    ∃ rs, ranges lookup enh text (flat v) = some rs ∧
      Split lookup (decide ((flat v).length = text.length)) (text.length - (flat v).length) v rs := by
  induction n with
  | zero =>
    intro v hn hv ht hs
    cases v with
    | nil => exact ⟨[], by unfold ranges; rw [if_neg (by decide)], .nil⟩
    | cons c r =>
      have := next_lt (more_cons hv)
      omega
  | succ n ih =>
    intro v hn hv ht hs
    cases v with
    | nil => exact ⟨[], by unfold ranges; rw [if_neg (by decide)], .nil⟩
    | cons c r =>
      obtain ⟨o, cmd, cl, v', he, h1, h2, h3, h4, h5⟩ := next_flat_split hl enh hv ht (fun h => by
        rcases hs h with h | h
        · simp at h
        · exact h)
      have hlt := nextCommand_lt lookup enh text _ (more_cons hv)
      rw [h1] at hlt
      have hv' : ∀ x ∈ v', IsText x := fun x hx => hv x (by rw [he]; simp [hx])
      have ht' : flat v' <:+ text := List.IsSuffix.trans ⟨flat (o ++ (cmd ++ cl)), by rw [he, ← flat_append]⟩ ht
      have hle := ht.length_le
      have hne : (flat v').length ≠ text.length := by
        simp only at hlt; omega
      obtain ⟨rs, hr1, hr2⟩ := ih v' (by simp only at hlt; omega) hv' ht' (fun _ => by
        rcases h5 with h | ⟨s, r, h, hs⟩
        · exact .inl h
        · exact .inr ⟨s, r, h, hs⟩)
      refine ⟨(text.length - (flat (c :: r)).length + (flat o).length, (flat cmd).length) :: rs, ?_, ?_⟩
      · rw [ranges, if_pos (more_cons hv), h1]
        simp only at hlt
        simp only [hlt, if_true, hr1, Option.map_some]
      · rcases h5 with rfl | ⟨s, r', rfl, hsep⟩
        · have hrs : rs = [] := by
            unfold ranges at hr1
            rw [if_neg (by decide)] at hr1
            simpa using hr1.symm
          rw [hrs]
          generalize text.length - (flat (c :: r)).length = pos
          generalize (decide ((flat (c :: r)).length = text.length)) = first at *
          rw [he, List.append_nil]
          exact .last (by simpa using h2) h3 h4
        · have hpos : text.length - (flat (s :: r')).length = text.length - (flat (c :: r)).length + (flat (o ++ (cmd ++ cl))).length := by
            have : (flat (c :: r)).length = (flat (o ++ (cmd ++ cl))).length + (flat (s :: r')).length := by
              rw [he, flat_append, List.length_append]
            omega
          rw [decide_eq_false hne, hpos] at hr2
          generalize text.length - (flat (c :: r)).length = pos at *
          generalize (decide ((flat (c :: r)).length = text.length)) = first at *
          rw [he]
          exact .cons h2 h3 h4 hsep hr2

theorem Spec.Split.upTo {lookup : Lookup} {first : Bool} {pos : Nat} {cs : List Nat} {rs : List (Nat × Nat)} (h : Split lookup first pos cs rs) :
    upTo (pos + (flat cs).length) rs = rs := by
  induction h with
  | nil => rfl
  | last h1 h2 h3 => simp [Tokens.upTo]
  | @cons first pos o cmd cl s rest rs h1 h2 h3 h4 h5 ih =>
    have hs : (flat (s :: rest)).length = 1 + (flat rest).length := by
      rw [flat_cons, sep_ascii h4]; simp; omega
    rw [flat_append (o ++ (cmd ++ cl)), List.length_append, ← Nat.add_assoc]
    rw [Tokens.upTo, ih, if_neg]
    rw [flat_append o, flat_append cmd, hs]
    simp only [List.length_append]
    omega

theorem upTo_prefix (cursor : Nat) (rs : List (Nat × Nat)) : upTo cursor rs <+: rs := by
  induction rs with
  | nil => exact List.prefix_refl _
  | cons r rs ih =>
    unfold upTo
    split
    · exact ⟨rs, rfl⟩
    · exact List.prefix_cons_inj r |>.2 ih

theorem Ordered.prefix {stop pos : Nat} {rs ws : List (Nat × Nat)} (h : Ordered stop pos rs) (hp : ws <+: rs) : Ordered stop pos ws := by
  induction ws generalizing pos rs with
  | nil => exact True.intro
  | cons w ws ih =>
    cases rs with
    | nil => simp at hp
    | cons r rs =>
      obtain ⟨rfl, hp'⟩ := List.cons_prefix_cons.1 hp
      exact ⟨h.1, h.2.1, ih h.2.2 hp'⟩

theorem upTo_ne_nil {cursor : Nat} {rs : List (Nat × Nat)} (h : rs ≠ []) : upTo cursor rs ≠ [] := by
  cases rs with
  | nil => exact absurd rfl h
  | cons r rs => unfold upTo; split <;> simp

theorem Spec.Handle.last {u : List Nat} (h : Handle u) : ∃ q d, u = q ++ [d] ∧ Angle d := by
  obtain ⟨p, d, r, rfl, -, hr, -⟩ := h
  rcases hr with rfl | rfl | rfl | rfl
  · exact ⟨p ++ [d], 60, by simp, .inl rfl⟩
  · exact ⟨p ++ [d], 62, by simp, .inr rfl⟩
  · exact ⟨p ++ [d, 60], 60, by simp, .inl rfl⟩
  · exact ⟨p ++ [d, 62], 62, by simp, .inr rfl⟩

theorem not_handle {q : List Nat} {d : Nat} (h : ¬ Angle d) : ¬ Handle (q ++ [d]) := by
  intro hh
  obtain ⟨q', d', he, ha⟩ := hh.last
  obtain ⟨-, rfl⟩ := snoc_inj he
  exact h ha

end Clink.Tokens
