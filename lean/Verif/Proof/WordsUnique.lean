import Verif.Proof.Words

/-! The words of a text are unique. -/

namespace Clink.Tokens

open Doskey.Spec (flat)
open Spec

theorem Spec.Seps.unique {ds : List Nat} (h94 : 94 ∉ ds) {s₁ t₁ : List Nat} (h₁ : Seps ds s₁) (a₁ : ¬ AtSep ds t₁) : ∀ {s₂ t₂ : List Nat},
    Seps ds s₂ → ¬ AtSep ds t₂ → s₁ ++ t₁ = s₂ ++ t₂ → s₁ = s₂ ∧ t₁ = t₂ := by
  induction h₁ with
  | nil =>
    intro s₂ t₂ h₂ _ he
    cases h₂ with
    | nil => exact ⟨rfl, he⟩
    | char hc _ => exact absurd (.inl ⟨_, _, he, hc⟩) a₁
    | caret _ => exact absurd (.inr ⟨_, he⟩) a₁
  | @char c s hc hs ih =>
    intro s₂ t₂ h₂ a₂ he
    cases h₂ with
    | nil => exact absurd (.inl ⟨_, _, he.symm, hc⟩) a₂
    | char hc' h₂ =>
      obtain ⟨hh, hj⟩ := List.cons.inj he; clear he; have he := hj; clear hj; subst hh
      obtain ⟨rfl, rfl⟩ := ih h₂ a₂ he
      exact ⟨rfl, rfl⟩
    | caret _ =>
      obtain ⟨hh, hj⟩ := List.cons.inj he; clear he; have he := hj; clear hj; subst hh
      exact absurd hc h94
  | @caret s hs ih =>
    intro s₂ t₂ h₂ a₂ he
    cases h₂ with
    | nil => exact absurd (.inr ⟨_, he.symm⟩) a₂
    | char hc' h₂ =>
      obtain ⟨hh, hj⟩ := List.cons.inj he; clear he; have he := hj; clear hj; subst hh
      exact absurd hc' h94
    | caret h₂ =>
      obtain ⟨-, he⟩ := List.cons.inj he
      obtain ⟨-, he⟩ := List.cons.inj he
      obtain ⟨rfl, rfl⟩ := ih h₂ a₂ he
      exact ⟨rfl, rfl⟩

theorem redir_head {op : List Nat} (h : Redir op) : ∃ a x, Angle a ∧ op = a :: x := by
  unfold Redir at h
  unfold Angle
  rcases h with rfl | rfl | rfl | rfl
  · exact ⟨60, _, by decide, rfl⟩
  · exact ⟨62, _, by decide, rfl⟩
  · exact ⟨60, _, by decide, rfl⟩
  · exact ⟨62, _, by decide, rfl⟩

theorem Spec.Operator.head {op r : List Nat} {b : Bool} (h : Operator op r b) :
    (∃ a x, Angle a ∧ op = a :: x) ∨ ∃ d a x, Digit d ∧ Angle a ∧ op = d :: a :: x := by
  cases h with
  | plain h1 _ => exact .inl (redir_head h1)
  | handle hd h1 _ _ =>
    obtain ⟨a, x, h2, rfl⟩ := redir_head h1
    exact .inr ⟨_, a, x, hd, h2, rfl⟩
  | copy hd h1 _ =>
    obtain ⟨a, x, h2, rfl⟩ := redir_head h1
    exact .inr ⟨_, a, _, hd, h2, rfl⟩
  | bad hd h1 _ =>
    obtain ⟨a, x, h2, rfl⟩ := redir_head h1
    exact .inr ⟨_, a, _, hd, h2, rfl⟩

theorem not_sep {k : Kind} {slash : Bool} {c : Nat} (h : Digit c ∨ Angle c) : c ∉ k.before ∧ c ∉ k.ends slash ∧ c ≠ 94 := by
  unfold Digit Angle at h
  cases k <;> cases slash <;> simp [Kind.before, Kind.ends, wordSeps, nameSeps] <;> omega

theorem not_breaks {fst : Bool} {w : List Nat} {c : Nat} (h : Digit c ∨ Angle c) : ¬ Breaks fst w c := by
  rintro ⟨-, -, h1⟩
  unfold Digit Angle at h
  simp at h1; omega

theorem Spec.Operator.atSep {op r : List Nat} {b : Bool} (h : Operator op r b) (k : Kind) : ¬ AtSep k.before (op ++ r) := by
  have key : ∃ c x, (Digit c ∨ Angle c) ∧ op = c :: x := by
    rcases h.head with ⟨a, x, h1, h2⟩ | ⟨d, a, x, h1, -, h2⟩
    · exact ⟨a, x, .inr h1, h2⟩
    · exact ⟨d, _, .inl h1, h2⟩
  obtain ⟨c, x, hc, rfl⟩ := key
  have hn := not_sep (k := k) (slash := false) hc
  rintro (⟨c', r', h1, h2⟩ | ⟨r', h1⟩)
  · obtain ⟨rfl, -⟩ := List.cons.inj h1
    exact hn.1 h2
  · obtain ⟨rfl, -⟩ := List.cons.inj h1
    exact hn.2.2 rfl

theorem Spec.After.first {k : Kind} {slash fst redir' : Bool} {after delim c : Nat} {w r rest : List Nat}
    (h : After k slash after fst w (c :: r) delim rest redir') : mode w = .plain ∧ (EndsWord k slash after c r ∨ Breaks fst w c) := by
  generalize hg : c :: r = x at h
  cases h with
  | stop => cases hg
  | caretStop h1 h2 h3 =>
    obtain ⟨rfl, rfl⟩ := List.cons.inj hg
    exact ⟨h3, .inl (.inr (.inr ⟨rfl, h1, h2⟩))⟩
  | caret h1 h2 h3 =>
    obtain ⟨rfl, rfl⟩ := List.cons.inj hg
    exact ⟨h3, .inl (.inr (.inr ⟨rfl, h1, .inl h2⟩))⟩
  | sep h1 h2 h3 h4 =>
    obtain ⟨rfl, rfl⟩ := List.cons.inj hg
    exact ⟨h4, .inl (.inl h1)⟩
  | break_ h1 h2 =>
    obtain ⟨rfl, rfl⟩ := List.cons.inj hg
    rcases h1 with h1 | h1
    · exact ⟨h2, .inr h1⟩
    · exact ⟨h2, .inl (.inl h1.2)⟩
  | redirection h1 h2 h3 h4 h5 =>
    obtain ⟨a, x, h6, rfl⟩ := redir_head h1
    obtain ⟨rfl, rfl⟩ := List.cons.inj hg
    exact ⟨h3, .inl (.inr (.inl h6))⟩

theorem Spec.After.angle {k : Kind} {slash fst redir' : Bool} {after delim c : Nat} {w r rest : List Nat}
    (h : After k slash after fst w (c :: r) delim rest redir') (hc : Angle c) : w ≠ [] ∧ ∀ d, Digit d → w ≠ [d] := by
  have hs := not_sep (k := k) (slash := slash) (.inr hc)
  generalize hg : c :: r = x at h
  cases h with
  | stop => cases hg
  | caretStop h1 h2 h3 => exact absurd (List.cons.inj hg).1 hs.2.2
  | caret h1 h2 h3 => exact absurd (List.cons.inj hg).1 hs.2.2
  | sep h1 h2 h3 h4 =>
    obtain ⟨rfl, rfl⟩ := List.cons.inj hg
    exact absurd h1 hs.2.1
  | break_ h1 h2 =>
    obtain ⟨rfl, rfl⟩ := List.cons.inj hg
    rcases h1 with h1 | h1
    · exact absurd h1 (not_breaks (.inr hc))
    · exact absurd h1.2 hs.2.1
  | redirection h1 h2 h3 h4 h5 => exact ⟨h4, h5⟩

theorem word_not_operator {k : Kind} {slash fst redir' b : Bool} {after delim : Nat} {w r rest op r' : List Nat}
    (hw : IsWord k slash after fst w r) (ha : After k slash after fst w r delim rest redir') (ho : Operator op r' b) : w ++ r ≠ op ++ r' := by
  intro he
  rcases ho.head with ⟨a, x, h1, rfl⟩ | ⟨d, a, x, h0, h1, rfl⟩
  · cases w with
    | nil =>
      simp only [List.nil_append, List.cons_append] at he
      rw [he] at ha
      exact (ha.angle h1).1 rfl
    | cons y w =>
      obtain ⟨rfl, -⟩ := List.cons.inj he
      exact (hw [] _ w rfl rfl).1 (.inr (.inl h1))
  · cases w with
    | nil =>
      simp only [List.nil_append, List.cons_append] at he
      rw [he] at ha
      obtain ⟨-, h2⟩ := ha.first
      have hs := not_sep (k := k) (slash := slash) (.inl h0)
      rcases h2 with (h2 | h2 | h2) | h2
      · exact hs.2.1 h2
      · unfold Angle at h2; unfold Digit at h0; omega
      · exact hs.2.2 h2.1
      · exact not_breaks (.inl h0) h2
    | cons y w =>
      obtain ⟨hh, hj⟩ := List.cons.inj he; clear he; have he := hj; clear hj; subst hh
      cases w with
      | nil =>
        have he : r = a :: (x ++ r') := he
        rw [he] at ha
        exact (ha.angle h1).2 _ h0 rfl
      | cons z w =>
        obtain ⟨hh, hj⟩ := List.cons.inj he; clear he; have he := hj; clear hj; subst hh
        refine (hw [y] _ w rfl ?_).1 (.inr (.inl h1))
        exact mode_char (u := []) rfl (by unfold Digit at h0; omega) (by unfold Digit at h0; omega)

theorem word_prefix {k : Kind} {slash fst redir₁ : Bool} {after d₁ : Nat} {w₁ r₁ rest₁ w₂ r₂ a : List Nat}
    (h₁ : After k slash after fst w₁ r₁ d₁ rest₁ redir₁) (h₂ : IsWord k slash after fst w₂ r₂) (hw : w₂ = w₁ ++ a) (hr : r₁ = a ++ r₂) : a = [] := by
  cases a with
  | nil => rfl
  | cons c a =>
    rw [List.cons_append] at hr
    subst hr
    obtain ⟨h3, h4⟩ := h₁.first
    obtain ⟨h5, h6⟩ := h₂ w₁ c a hw h3
    exact (h4.elim h5 h6).elim

theorem redir_whole {o₁ o₂ r₁ r₂ : List Nat} (h₁ : Redir o₁) (h₂ : Redir o₂) (w₁ : Whole o₁ r₁) (w₂ : Whole o₂ r₂) (he : o₁ ++ r₁ = o₂ ++ r₂) :
    o₁ = o₂ ∧ r₁ = r₂ := by
  unfold Redir at h₁ h₂
  unfold Whole at w₁ w₂
  rcases h₁ with rfl | rfl | rfl | rfl <;> rcases h₂ with rfl | rfl | rfl | rfl <;> simp at he ⊢ <;> first
    | exact he
    | (subst he; simp at w₁ w₂)

theorem whole_38 {o r : List Nat} (h : Redir o) : Whole o (38 :: r) := by
  unfold Redir at h
  unfold Whole
  rcases h with rfl | rfl | rfl | rfl <;> simp

theorem Spec.Operator.unique {o₁ o₂ r₁ r₂ : List Nat} {b₁ b₂ : Bool} (h₁ : Operator o₁ r₁ b₁) (h₂ : Operator o₂ r₂ b₂) (he : o₁ ++ r₁ = o₂ ++ r₂) :
    o₁ = o₂ ∧ r₁ = r₂ ∧ b₁ = b₂ := by
  have pd : ∀ {o r d x : List Nat} {e : Nat}, Redir o → Digit e → o ++ r = e :: x → False := by
    intro o r d x e ho he h
    obtain ⟨a, y, h1, rfl⟩ := redir_head ho
    obtain ⟨rfl, -⟩ := List.cons.inj h
    unfold Digit at he; unfold Angle at h1; omega
  cases h₁ with
  | plain a₁ w₁ =>
    cases h₂ with
    | plain a₂ w₂ =>
      obtain ⟨rfl, rfl⟩ := redir_whole a₁ a₂ w₁ w₂ he
      exact ⟨rfl, rfl, rfl⟩
    | handle hd _ _ _ => exact (pd (d := []) a₁ hd he).elim
    | copy hd _ _ => exact (pd (d := []) a₁ hd he).elim
    | bad hd _ _ => exact (pd (d := []) a₁ hd he).elim
  | handle hd₁ a₁ w₁ n₁ =>
    cases h₂ with
    | plain a₂ w₂ => exact (pd (d := []) a₂ hd₁ he.symm).elim
    | handle hd₂ a₂ w₂ n₂ =>
      obtain ⟨hh, hj⟩ := List.cons.inj he; clear he; have he := hj; clear hj; subst hh
      obtain ⟨rfl, rfl⟩ := redir_whole a₁ a₂ w₁ w₂ he
      exact ⟨rfl, rfl, rfl⟩
    | copy hd₂ a₂ e₂ =>
      simp only [List.cons_append, List.append_assoc, List.nil_append] at he
      obtain ⟨hh, hj⟩ := List.cons.inj he; clear he; have he := hj; clear hj; subst hh
      obtain ⟨rfl, rfl⟩ := redir_whole a₁ a₂ w₁ (whole_38 a₂) he
      exact absurd rfl n₁
    | bad hd₂ a₂ e₂ =>
      simp only [List.cons_append, List.append_assoc, List.nil_append] at he
      obtain ⟨hh, hj⟩ := List.cons.inj he; clear he; have he := hj; clear hj; subst hh
      obtain ⟨rfl, rfl⟩ := redir_whole a₁ a₂ w₁ (whole_38 a₂) he
      exact absurd rfl n₁
  | copy hd₁ a₁ e₁ =>
    cases h₂ with
    | plain a₂ w₂ => exact (pd (d := []) a₂ hd₁ (by simpa using he.symm)).elim
    | handle hd₂ a₂ w₂ n₂ =>
      simp only [List.cons_append, List.append_assoc, List.nil_append] at he
      obtain ⟨hh, hj⟩ := List.cons.inj he; clear he; have he := hj; clear hj; subst hh
      obtain ⟨rfl, rfl⟩ := redir_whole a₁ a₂ (whole_38 a₁) w₂ he
      exact absurd rfl n₂
    | copy hd₂ a₂ e₂ =>
      simp only [List.cons_append, List.append_assoc, List.nil_append] at he
      obtain ⟨hh, hj⟩ := List.cons.inj he; clear he; have he := hj; clear hj; subst hh
      obtain ⟨rfl, he⟩ := redir_whole a₁ a₂ (whole_38 a₁) (whole_38 a₂) he
      simp at he
      obtain ⟨rfl, rfl⟩ := he
      exact ⟨rfl, rfl, rfl⟩
    | bad hd₂ a₂ e₂ =>
      simp only [List.cons_append, List.append_assoc, List.nil_append] at he
      obtain ⟨hh, hj⟩ := List.cons.inj he; clear he; have he := hj; clear hj; subst hh
      obtain ⟨rfl, he⟩ := redir_whole a₁ a₂ (whole_38 a₁) (whole_38 a₂) he
      simp at he
      subst he
      exact absurd e₁ (e₂ _ rfl)
  | bad hd₁ a₁ e₁ =>
    cases h₂ with
    | plain a₂ w₂ => exact (pd (d := []) a₂ hd₁ (by simpa using he.symm)).elim
    | handle hd₂ a₂ w₂ n₂ =>
      simp only [List.cons_append, List.append_assoc, List.nil_append] at he
      obtain ⟨hh, hj⟩ := List.cons.inj he; clear he; have he := hj; clear hj; subst hh
      obtain ⟨rfl, rfl⟩ := redir_whole a₁ a₂ (whole_38 a₁) w₂ he
      exact absurd rfl n₂
    | copy hd₂ a₂ e₂ =>
      simp only [List.cons_append, List.append_assoc, List.nil_append] at he
      obtain ⟨hh, hj⟩ := List.cons.inj he; clear he; have he := hj; clear hj; subst hh
      obtain ⟨rfl, he⟩ := redir_whole a₁ a₂ (whole_38 a₁) (whole_38 a₂) he
      simp at he
      subst he
      exact absurd e₂ (e₁ _ rfl)
    | bad hd₂ a₂ e₂ =>
      simp only [List.cons_append, List.append_assoc, List.nil_append] at he
      obtain ⟨hh, hj⟩ := List.cons.inj he; clear he; have he := hj; clear hj; subst hh
      obtain ⟨rfl, he⟩ := redir_whole a₁ a₂ (whole_38 a₁) (whole_38 a₂) he
      simp at he
      subst he
      exact ⟨rfl, rfl, rfl⟩

theorem ends_not_94 {k : Kind} {slash fst : Bool} {w : List Nat} : 94 ∉ k.ends slash ∧ ¬ Breaks fst w 94 :=
  ⟨ends_94.1, fun h => absurd h.2.2 (by decide)⟩

theorem Spec.After.unique {k : Kind} {slash fst redir₁ redir₂ : Bool} {after d₁ d₂ : Nat} {w r₁ r₂ rest₁ rest₂ : List Nat}
    (h₁ : After k slash after fst w r₁ d₁ rest₁ redir₁) (h₂ : After k slash after fst w r₂ d₂ rest₂ redir₂) (hr : r₁ = r₂) :
    d₁ = d₂ ∧ rest₁ = rest₂ ∧ redir₁ = redir₂ := by
  have hnb : ∀ {x y : List Nat} {c : Nat}, Blank c → [c] ++ x = 94 :: y → False := by
    intro x y c hb h
    obtain ⟨rfl, -⟩ := List.cons.inj h
    unfold Blank at hb; omega
  have h94 : ∀ {c}, c ∈ k.ends slash → c ≠ 94 := fun h e => ends_94.1 (e ▸ h)
  have b94 : ∀ {c}, (Breaks fst w c ∨ c = 47 ∧ c ∈ k.ends slash) → c ≠ 94 := by
    intro c h e
    subst e
    rcases h with h | h
    · exact ends_not_94 (k := k) (slash := slash) |>.2 h
    · exact ends_94.1 h.2
  cases h₁ with
  | stop =>
    cases h₂ with
    | stop => exact ⟨rfl, rfl, rfl⟩
    | redirection ho =>
      obtain ⟨a, x, -, rfl⟩ := redir_head ho
      cases hr
    | _ => cases hr
  | caretStop =>
    cases h₂ with
    | caretStop => exact ⟨rfl, rfl, rfl⟩
    | sep h => exact absurd (List.cons.inj hr).1.symm (h94 h)
    | break_ h => exact absurd (List.cons.inj hr).1.symm (b94 h)
    | redirection ho =>
      obtain ⟨a, x, ha, rfl⟩ := redir_head ho
      exact absurd (List.cons.inj hr).1.symm (not_sep (k := k) (slash := slash) (.inr ha)).2.2
    | _ => cases hr
  | caret =>
    cases h₂ with
    | caret =>
      obtain ⟨-, hr⟩ := List.cons.inj hr
      obtain ⟨rfl, rfl⟩ := List.cons.inj hr
      exact ⟨rfl, rfl, rfl⟩
    | sep h => exact absurd (List.cons.inj hr).1.symm (h94 h)
    | break_ h => exact absurd (List.cons.inj hr).1.symm (b94 h)
    | redirection ho =>
      obtain ⟨a, x, ha, rfl⟩ := redir_head ho
      exact absurd (List.cons.inj hr).1.symm (not_sep (k := k) (slash := slash) (.inr ha)).2.2
    | _ => cases hr
  | sep h h' h'' =>
    cases h₂ with
    | stop => cases hr
    | caretStop => exact absurd (List.cons.inj hr).1 (h94 h)
    | caret => exact absurd (List.cons.inj hr).1 (h94 h)
    | sep g =>
      obtain ⟨rfl, rfl⟩ := List.cons.inj hr
      exact ⟨rfl, rfl, rfl⟩
    | break_ g =>
      obtain ⟨rfl, rfl⟩ := List.cons.inj hr
      rcases g with g | g
      · exact absurd g h''
      · exact absurd g.1 h'
    | redirection ho =>
      obtain ⟨a, x, ha, rfl⟩ := redir_head ho
      obtain ⟨rfl, -⟩ := List.cons.inj hr
      exact absurd h (not_sep (k := k) (slash := slash) (.inr ha)).2.1
  | break_ h =>
    cases h₂ with
    | stop => cases hr
    | caretStop => exact absurd (List.cons.inj hr).1 (b94 h)
    | caret => exact absurd (List.cons.inj hr).1 (b94 h)
    | sep g g' g'' =>
      obtain ⟨rfl, rfl⟩ := List.cons.inj hr
      rcases h with h | h
      · exact absurd h g''
      · exact absurd h.1 g'
    | break_ g =>
      obtain ⟨rfl, rfl⟩ := List.cons.inj hr
      exact ⟨rfl, rfl, rfl⟩
    | redirection ho =>
      obtain ⟨a, x, ha, rfl⟩ := redir_head ho
      obtain ⟨rfl, -⟩ := List.cons.inj hr
      rcases h with h | h
      · exact absurd h (not_breaks (.inr ha))
      · exact absurd h.2 (not_sep (k := k) (slash := slash) (.inr ha)).2.1
  | redirection ho hw =>
    cases h₂ with
    | redirection ho' hw' =>
      obtain ⟨rfl, rfl⟩ := redir_whole ho ho' hw hw' hr
      exact ⟨rfl, rfl, rfl⟩
    | stop =>
      obtain ⟨a, x, -, rfl⟩ := redir_head ho
      cases hr
    | caretStop =>
      obtain ⟨a, x, ha, rfl⟩ := redir_head ho
      exact absurd (List.cons.inj hr).1 (not_sep (k := k) (slash := slash) (.inr ha)).2.2
    | caret =>
      obtain ⟨a, x, ha, rfl⟩ := redir_head ho
      exact absurd (List.cons.inj hr).1 (not_sep (k := k) (slash := slash) (.inr ha)).2.2
    | sep h =>
      obtain ⟨a, x, ha, rfl⟩ := redir_head ho
      obtain ⟨rfl, -⟩ := List.cons.inj hr
      exact absurd h (not_sep (k := k) (slash := slash) (.inr ha)).2.1
    | break_ h =>
      obtain ⟨a, x, ha, rfl⟩ := redir_head ho
      obtain ⟨rfl, -⟩ := List.cons.inj hr
      rcases h with h | h
      · exact absurd h (not_breaks (.inr ha))
      · exact absurd h.2 (not_sep (k := k) (slash := slash) (.inr ha)).2.1

theorem Spec.NextWord.unique {after : Nat} {cw redir fst cont redir₁ : Bool} {pos : Nat} {text rest₁ : List Nat} {t₁ : Nat × Nat × Nat × Bool}
    (h₁ : NextWord after cw redir fst cont pos text t₁ rest₁ redir₁) : ∀ {text₂ t₂ rest₂ redir₂}, text = text₂ →
    NextWord after cw redir fst cont pos text₂ t₂ rest₂ redir₂ → t₁ = t₂ ∧ rest₁ = rest₂ ∧ redir₁ = redir₂ := by
  induction h₁ with
  | @word redir fst cont pos s w r delim rest redir' a₁ a₂ a₃ a₄ =>
    intro text₂ t₂ rest₂ redir₂ he h₂
    cases h₂ with
    | word b₁ b₂ b₃ b₄ =>
      rename_i s' w' r' delim'
      obtain ⟨hh, hj⟩ := Seps.unique (before_94 _) a₁ a₂ b₁ b₂ he; clear he; have he := hj; clear hj; subst hh
      rw [he] at a₃ a₄
      have hw : w = w' ∧ r = r' := by
        rcases List.append_eq_append_iff.1 he with ⟨a, h1, h2⟩ | ⟨a, h1, h2⟩
        · have := word_prefix a₄ b₃ h1 h2
          subst this
          simp at h1 h2
          exact ⟨h1.symm, h2⟩
        · have := word_prefix b₄ a₃ h1 h2
          subst this
          simp at h1 h2
          exact ⟨h1, h2.symm⟩
      obtain ⟨rfl, rfl⟩ := hw
      obtain ⟨rfl, rfl, rfl⟩ := a₄.unique b₄ rfl
      exact ⟨rfl, rfl, rfl⟩
    | redirection b₁ b₂ b₃ =>
      obtain ⟨hh, hj⟩ := Seps.unique (before_94 _) a₁ a₂ b₁ (b₂.atSep _) he; clear he; have he := hj; clear hj; subst hh
      exact absurd he (word_not_operator a₃ a₄ b₂)
  | @redirection redir fst cont pos s op r redir' t rest redir'' a₁ a₂ a₃ ih =>
    intro text₂ t₂ rest₂ redir₂ he h₂
    cases h₂ with
    | word b₁ b₂ b₃ b₄ =>
      obtain ⟨hh, hj⟩ := Seps.unique (before_94 _) a₁ (a₂.atSep _) b₁ b₂ he; clear he; have he := hj; clear hj; subst hh
      exact absurd he.symm (word_not_operator b₃ b₄ a₂)
    | redirection b₁ b₂ b₃ =>
      obtain ⟨hh, hj⟩ := Seps.unique (before_94 _) a₁ (a₂.atSep _) b₁ (b₂.atSep _) he; clear he; have he := hj; clear hj; subst hh
      obtain ⟨rfl, rfl, rfl⟩ := a₂.unique b₂ he
      exact ih rfl b₃

/-- A text has only one list of words. -/
theorem Spec.WordsOf.unique {after n : Nat} {cw redir fst : Bool} {text : List Nat} {ts₁ : List (Nat × Nat × Nat × Bool)}
    (h₁ : WordsOf after n cw redir fst text ts₁) : ∀ {ts₂}, WordsOf after n cw redir fst text ts₂ → ts₁ = ts₂ := by
  induction h₁ with
  | nil =>
    intro ts₂ h₂
    cases h₂ with
    | nil => rfl
    | lost h => exact absurd rfl h
    | cons h => exact absurd rfl h
  | lost a₁ a₂ a₃ =>
    intro ts₂ h₂
    cases h₂ with
    | nil => exact absurd rfl a₁
    | lost b₁ b₂ b₃ => rfl
    | cons b₁ b₂ b₃ =>
      obtain ⟨rfl, -⟩ := a₂.unique rfl b₂
      exact absurd a₃ b₃
  | cons a₁ a₂ a₃ a₄ ih =>
    intro ts₂ h₂
    cases h₂ with
    | nil => exact absurd rfl a₁
    | lost b₁ b₂ b₃ =>
      obtain ⟨rfl, -⟩ := a₂.unique rfl b₂
      exact absurd b₃ a₃
    | cons b₁ b₂ b₃ b₄ =>
      obtain ⟨rfl, rfl, rfl⟩ := a₂.unique rfl b₂
      rw [ih b₄]

end Clink.Tokens
