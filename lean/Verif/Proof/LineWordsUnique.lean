import Verif.Proof.LineWords
import Verif.Proof.WordsUnique

/-!
There is only one way to read the words of a line.
-/

namespace Clink.Tokens

open Utf (more IsText)
open Doskey (Lookup peek_flat)
open Doskey.Spec (flat)
open Tokens.Spec

theorem Spec.Extent.unique {line : List Nat} {o n a b c d : Nat} (h : Extent line o n a b) (h' : Extent line o n c d) : a = c ∧ b = d := by
  unfold Extent at h h'
  split at h <;> simp_all <;> omega

theorem first_unique {x : Nat} : ∀ {a b a' b' : List Nat}, a ++ x :: b = a' ++ x :: b' → x ∉ a → x ∉ a' → a = a' ∧ b = b' := by
  intro a
  induction a with
  | nil =>
    intro b a' b' h _ h2
    cases a' with
    | nil => simp at h; exact ⟨rfl, h⟩
    | cons y a' => simp at h h2; exact absurd h.1 h2.1
  | cons y a ih =>
    intro b a' b' h h1 h2
    cases a' with
    | nil => simp at h h1; exact absurd h.1.symm h1.1
    | cons z a' =>
      simp at h h1 h2
      obtain ⟨h3, h4⟩ := ih h.2 h1.2 h2.2
      exact ⟨by rw [h.1, h3], h4⟩

theorem replicate_unique {x : Nat} : ∀ {k k' : Nat} {r r' : List Nat}, List.replicate k x ++ r = List.replicate k' x ++ r' →
    r.head? ≠ some x → r'.head? ≠ some x → k = k' := by
  intro k
  induction k with
  | zero =>
    intro k' r r' h h1 _
    cases k' with
    | zero => rfl
    | succ k' => rw [List.replicate_succ] at h; simp at h; rw [h] at h1; simp at h1
  | succ k ih =>
    intro k' r r' h h1 h2
    cases k' with
    | zero => rw [List.replicate_succ] at h; simp at h; rw [← h] at h2; simp at h2
    | succ k' =>
      rw [List.replicate_succ, List.replicate_succ] at h
      simp only [List.cons_append, List.cons.injEq, true_and] at h
      rw [ih h h1 h2]

theorem Spec.TokenWords.unique {line : List Nat} {stop : Nat} {depr first : Bool} {o n delim : Nat} {target : Bool} {ws ws' : List LineWord}
    (h : TokenWords line stop depr first o n delim target ws) (h' : TokenWords line stop depr first o n delim target ws') : ws = ws' := by
  cases h with
  | @colon o1 n1 a b he hd ht hf hs ha =>
    cases h' with
    | @colon o2 n2 a' b' he' hd' ht' hf' hs' ha' =>
      obtain ⟨rfl, rfl⟩ := he.unique he'
      obtain ⟨rfl, rfl⟩ := first_unique (hs.symm.trans hs') ha ha'
      rfl
    | @flag o2 n2 k r he' _ _ _ hs' _ _ =>
      obtain ⟨rfl, rfl⟩ := he.unique he'
      rw [hs] at hs'; simp at hs'
    | @plain o2 n2 he' hh =>
      obtain ⟨rfl, rfl⟩ := he.unique he'
      rw [hd, ht] at hh; simp [hf] at hh
  | @flag o1 n1 k r he hd ht hf hs hr hr2 =>
    cases h' with
    | @colon o2 n2 a' b' he' hd' ht' hf' hs' ha' =>
      obtain ⟨rfl, rfl⟩ := he.unique he'
      rw [hs'] at hs; simp at hs
    | @flag o2 n2 k' r' he' _ _ _ hs' hr' hr2' =>
      obtain ⟨rfl, rfl⟩ := he.unique he'
      rw [replicate_unique (hr.symm.trans hr') hr2 hr2']
    | @plain o2 n2 he' hh =>
      obtain ⟨rfl, rfl⟩ := he.unique he'
      rw [hd, ht] at hh; simp [hf] at hh
  | @plain o1 n1 he hh =>
    cases h' with
    | @colon o2 n2 a' b' he' hd' ht' hf' hs' ha' =>
      obtain ⟨rfl, rfl⟩ := he.unique he'
      rw [hd', ht'] at hh; simp [hf'] at hh
    | @flag o2 n2 k' r' he' hd' ht' hf' hs' hr' hr2' =>
      obtain ⟨rfl, rfl⟩ := he.unique he'
      rw [hd', ht'] at hh; simp [hf'] at hh
    | @plain o2 n2 he' _ =>
      obtain ⟨rfl, rfl⟩ := he.unique he'
      rfl

theorem Spec.PieceWords.unique {line : List Nat} {base stop : Nat} {depr first : Bool} {ts : List (Nat × Nat × Nat × Bool)} {ws ws' : List LineWord}
    (h : PieceWords line base stop depr first ts ws) : PieceWords line base stop depr first ts ws' → ws = ws' := by
  intro h'
  induction h generalizing ws' with
  | nil => cases h'; rfl
  | cons h1 _ ih =>
    cases h' with
    | cons h1' h2' => rw [h1.unique h1', ih h2']

theorem Spec.AliasCommand.unique {lookup : Lookup} {enh : Bool} {before cmd name bl t name' bl' t' : List Nat}
    (h : AliasCommand lookup enh before cmd name bl t) (h' : AliasCommand lookup enh before cmd name' bl' t') : name = name' ∧ bl = bl' ∧ t = t' := by
  have hn : ∀ {name bl t : List Nat}, AliasCommand lookup enh before cmd name bl t →
      name = nameOf cmd ∧ bl = (cmd.drop name.length).takeWhile (fun c => c = 32 ∨ c = 9) := by
    rintro name bl t ⟨h1, h2, h3, h4, h5, -⟩
    have hb : ∀ c, Blank c ↔ (c = 32 ∨ c = 9) := fun c => Iff.rfl
    constructor
    · unfold nameOf
      rw [h1, List.takeWhile_append_of_pos]
      · rw [show (bl ++ t).takeWhile (fun c => decide (c ≠ 32 ∧ c ≠ 9)) = [] from ?_, List.append_nil]
        cases bl with
        | nil =>
          cases t with
          | nil => rfl
          | cons c r => exact absurd rfl (h5 c r rfl).2
        | cons c r =>
          have := (hb c).1 (h4 c (by simp))
          rw [List.cons_append, List.takeWhile_cons_of_neg]
          simp; omega
      · intro c hc
        have := mt (hb c).2 (h3 c hc)
        simp; omega
    · rw [h1, List.drop_left, List.takeWhile_append_of_pos]
      · cases t with
        | nil => simp
        | cons c r =>
          have := mt (hb c).2 (h5 c r rfl).1
          rw [List.takeWhile_cons_of_neg (by simpa using this), List.append_nil]
      · intro c hc
        simpa using (hb c).1 (h4 c hc)
  obtain ⟨h1, h2⟩ := hn h
  obtain ⟨h3, h4⟩ := hn h'
  have h5 : name = name' := h1.trans h3.symm
  subst h5
  have h6 : bl = bl' := h2.trans h4.symm
  subst h6
  refine ⟨rfl, rfl, ?_⟩
  have := h.1.symm.trans h'.1
  simpa using this

theorem Spec.CommandWords.unique {lookup : Lookup} {enh : Bool} {depr : List Nat → Bool} {line : List Nat} {o : Nat} {cmd : List Nat} {ws ws' : List LineWord}
    (h : CommandWords lookup enh depr line o cmd ws) (h' : CommandWords lookup enh depr line o cmd ws') : ws = ws' := by
  cases h with
  | alias ha hw hp =>
    cases h' with
    | alias ha' hw' hp' =>
      obtain ⟨rfl, rfl, rfl⟩ := ha.unique ha'
      rw [hw.unique hw'] at hp
      rw [hp.unique hp']
    | plain hn _ _ => exact absurd ⟨_, _, _, ha⟩ hn
  | plain hn hw hp =>
    cases h' with
    | alias ha' _ _ => exact absurd ⟨_, _, _, ha'⟩ hn
    | plain _ hw' hp' =>
      rw [hw.unique hw'] at hp
      exact hp.unique hp'

theorem flat_inj : ∀ {xs ys : List Nat}, (∀ c ∈ xs, IsText c) → (∀ c ∈ ys, IsText c) → flat xs = flat ys → xs = ys := by
  intro xs
  induction xs with
  | nil => intro ys _ hy h; exact ((flat_nil_iff hy).1 h.symm).symm
  | cons x xs ih =>
    intro ys hx hy h
    cases ys with
    | nil => exact (flat_nil_iff hx).1 h
    | cons y ys =>
      have hc : ∀ (c : Nat) (l : List Nat), flat (c :: l) = Utf.specUtf8 c ++ flat l := fun _ _ => rfl
      rw [hc, hc] at h
      have hxy : x = y := by
        rw [← peek_flat (hx x (by simp)) (flat xs), h, peek_flat (hy y (by simp))]
      subst hxy
      rw [ih (fun c hc => hx c (by simp [hc])) (fun c hc => hy c (by simp [hc])) (List.append_cancel_left h)]

theorem Spec.LineWords.unique {lookup : Lookup} {enh : Bool} {depr : List Nat → Bool} {line : List Nat} {rs : List (Nat × Nat)} {ws ws' : List LineWord}
    {b b' : Bool} (h : LineWords lookup enh depr line rs ws b) : LineWords lookup enh depr line rs ws' b' → ws = ws' ∧ b = b' := by
  intro h'
  induction h generalizing ws' with
  | one ht hs hw =>
    cases h' with
    | one ht' hs' hw' =>
      obtain rfl := flat_inj ht ht' (hs.symm.trans hs')
      rw [hw.unique hw']; exact ⟨rfl, rfl⟩
    | cons _ _ _ h2 => cases h2
  | cons ht hs hw h2 ih =>
    cases h' with
    | one _ _ _ => cases h2
    | cons ht' hs' hw' h2' =>
      obtain rfl := flat_inj ht ht' (hs.symm.trans hs')
      obtain ⟨h3, h4⟩ := ih h2'
      rw [hw.unique hw', h3, h4]; exact ⟨rfl, rfl⟩

theorem last_two_unique {α : Type} {us us' : List α} {c w c' w' : α} (h : us ++ [c, w] = us' ++ [c', w']) : us = us' ∧ c = c' ∧ w = w' := by
  have := congrArg List.reverse h
  simp at this
  exact ⟨this.2.2, this.2.1, this.1⟩

theorem last_unique {α : Type} {us us' : List α} {w w' : α} (h : us ++ [w] = us' ++ [w']) : us = us' ∧ w = w' := by
  have := congrArg List.reverse h
  simp at this
  exact ⟨this.2, this.1⟩

theorem Spec.Merged.unique {line : List Nat} {translate : Nat} {ws a b : List LineWord} (h : Merged line translate ws a) (h' : Merged line translate ws b) :
    a = b := by
  generalize hws : ws = xs at h'
  cases h with
  | merged ht hd =>
    cases h' with
    | merged _ _ =>
      obtain ⟨rfl, rfl, rfl⟩ := last_two_unique hws
      rfl
    | same hn => exact absurd ⟨ht, hd⟩ (hn _ _ _ hws.symm)
  | same hn =>
    cases h' with
    | merged ht hd => exact absurd ⟨ht, hd⟩ (hn _ _ _ hws)
    | same _ => exact hws

theorem Spec.AtCursor.unique {line : List Nat} {cursor : Nat} {first : Bool} {ws a b : List LineWord} (h : AtCursor line cursor first ws a)
    (h' : AtCursor line cursor first ws b) : a = b := by
  generalize hws : ws = xs at h'
  cases h with
  | none => cases h' with
    | none => rfl
    | add _ => simp at hws
    | same _ => simp at hws
  | add hlt => cases h' with
    | none => simp at hws
    | add _ => obtain ⟨rfl, rfl⟩ := last_unique hws; rfl
    | same hle => obtain ⟨rfl, rfl⟩ := last_unique hws; omega
  | same hle => cases h' with
    | none => simp at hws
    | add _ => obtain ⟨rfl, rfl⟩ := last_unique hws; omega
    | same _ => exact hws

theorem Spec.OrEmpty.unique {line : List Nat} {cursor : Nat} {first : Bool} {ws a b : List LineWord} (h : OrEmpty line cursor first ws a)
    (h' : OrEmpty line cursor first ws b) : a = b := by
  cases h with
  | none => cases h' with
    | none => rfl
    | same h => exact absurd rfl h
  | same h => cases h' with
    | none => exact absurd rfl h
    | same _ => rfl

theorem Spec.Unquoted.unique {line : List Nat} {w a b : LineWord} (h : Unquoted line w a) (h' : Unquoted line w b) : a = b := by
  cases h with
  | same h1 =>
    cases h' with
    | same _ => rfl
    | opened h2 h3 _ => rw [h2, h3] at h1; simp at h1
    | closed h2 h3 _ => rw [h2, h3] at h1; simp at h1
  | opened h1 h2 h3 =>
    cases h' with
    | same h4 => rw [h1, h2] at h4; simp at h4
    | opened _ _ _ => rfl
    | closed _ h4 h5 =>
      rw [h2] at h4
      exact absurd ⟨_, (List.cons.inj h4).2, h5⟩ h3
  | closed h1 h2 h3 =>
    cases h' with
    | same h4 => rw [h1, h2] at h4; simp at h4
    | opened _ h4 h5 =>
      rw [h2] at h4
      exact absurd ⟨_, (List.cons.inj h4).2.symm, h3⟩ h5
    | closed _ _ _ => rfl

theorem Spec.AllUnquoted.unique {line : List Nat} {ws a b : List LineWord} (h : AllUnquoted line ws a) : AllUnquoted line ws b → a = b := by
  intro h'
  induction h generalizing b with
  | nil => cases h'; rfl
  | cons h1 _ ih => cases h' with
    | cons h1' h2' => rw [h1.unique h1', ih h2']

end Clink.Tokens
