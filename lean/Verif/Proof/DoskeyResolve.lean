import Verif.Proof.DoskeyArgs

namespace Clink.Doskey

open Utf (more next8 specUtf8 IsText)
open Spec

theorem trim_prefix {B ptr : List Nat} (p : Nat) :
    (B ++ ptr).take (trimParens (B ++ ptr) 0 ((B ++ ptr).length - ptr.length) p) <+: B := by
  have := trimParens_le (B ++ ptr) 0 ((B ++ ptr).length - ptr.length) p
  generalize trimParens (B ++ ptr) 0 ((B ++ ptr).length - ptr.length) p = k at this ⊢
  simp at this
  rw [List.take_append_of_le_length this]
  exact List.take_prefix _ _

/-- What the arguments are: for text `B ++ ptr` whose command ends before `ptr`. -/
theorem args_spec (q : Bool) {B ptr input : List Nat} (hi : input <+: B) :
    (∀ a ∈ (collect q 10 input).map fun (x : List Nat × List Nat) => (x.1, x.2 ++ (B ++ ptr).drop input.length),
      a.1 <+: a.2 ∧ a.1 <:+: B ∧ ∃ B', a.2 = B' ++ ptr ∧ B' <:+ B) := by
  intro a ha
  obtain ⟨x, hx, rfl⟩ := List.mem_map.1 ha
  obtain ⟨h1, h2⟩ := collect_spec q 10 input x hx
  obtain ⟨t, rfl⟩ := hi
  refine ⟨h1.trans (List.prefix_append _ _), ?_, ?_⟩
  · exact (h1.isInfix.trans h2.isInfix).trans (List.prefix_append _ _).isInfix
  · simp only [List.append_assoc, List.drop_left]
    refine ⟨x.2 ++ t, by simp, ?_⟩
    obtain ⟨u, rfl⟩ := h2
    exact ⟨u, by simp⟩

theorem starText_spec {args : List (List Nat × List Nat)} {B ptr : List Nat}
    (h : ∀ a ∈ args, a.1 <+: a.2 ∧ a.1 <:+: B ∧ ∃ B', a.2 = B' ++ ptr ∧ B' <:+ B) : starText args ptr.length <:+: B := by
  cases args with
  | nil => exact List.nil_infix
  | cons a args =>
    obtain ⟨-, -, B', h1, h2⟩ := h a (by simp)
    obtain ⟨a1, a2⟩ := a
    simp only at h1
    subst h1
    simp [starText]
    exact h2.isInfix

/-- One resolved command. -/
theorem resolveImpl_spec (lookup : Lookup) (enh : Bool) {s : List Nat} (hw : Wf s) (hlen : s.length < 32768) :
    resolveImpl lookup enh s = some none ∨
    ∃ src out rest, resolveImpl lookup enh s = some (some (out, rest)) ∧ s = src ++ rest ∧ src ≠ [] ∧ Wf rest ∧
      (enh = false → rest = []) ∧ Call lookup ⟨true, src, out⟩ := by
  unfold resolveImpl
  cases ha : getAlias lookup enh s with
  | none => exact .inl rfl
  | some a =>
    obtain ⟨hl, hne, hsk, hwr, y, hy⟩ := getAlias_spec hw ha
    right
    obtain ⟨ts, hb⟩ := body_exists a.text
    -- both branches: the command is `B`, followed by `ptr`
    have key : ∀ B ptr input, a.rest = B ++ ptr → input <+: B → Wf ptr → (enh = false → ptr = []) →
        ∃ src out, (expand ((collect enh 10 input).map fun (x : List Nat × List Nat) => (x.1, x.2 ++ (B ++ ptr).drop input.length))
          (starText ((collect enh 10 input).map fun (x : List Nat × List Nat) => (x.1, x.2 ++ (B ++ ptr).drop input.length)) ptr.length)
          a.text).map (fun t => some (a.skipped ++ t, ptr)) = some (some (out, ptr)) ∧ s = src ++ ptr ∧ src ≠ [] ∧ Call lookup ⟨true, src, out⟩ := by
      intro B ptr input hB hi hwp hp
      have hargs := args_spec enh (ptr := ptr) hi
      have hstar := starText_spec hargs
      generalize (collect enh 10 input).map (fun (x : List Nat × List Nat) => (x.1, x.2 ++ (B ++ ptr).drop input.length)) = args at hargs hstar
      have hlenB : B.length < 32768 := by
        have := congrArg List.length hy
        rw [hB] at this
        simp at this; omega
      rw [expand_spec (args := args) (fun x hx => ⟨(hargs x hx).1, Nat.lt_of_le_of_lt (hargs x hx).2.1.length_le hlenB⟩) _ hb]
      refine ⟨a.skipped ++ (a.name ++ (y ++ B)), _, rfl, ?_, ?_, ?_⟩
      · rw [hy, hB]; simp
      · simp [hne]
      · refine ⟨a.skipped, a.name, y ++ B, a.text, ts, args.map (·.1), starText args ptr.length, rfl, hsk, hne, hl, hb, rfl, ?_, ?_⟩
        · intro w hw
          obtain ⟨x, hx, rfl⟩ := List.mem_map.1 hw
          exact (hargs x hx).2.1.trans (List.suffix_append y B).isInfix
        · exact hstar.trans (List.suffix_append y B).isInfix
    simp only
    split
    · rename_i hs
      have henh : enh = true := by simp at hs; exact hs.1
      obtain ⟨B, hB⟩ := findEnd_suffix false a.rest
      have hwp := findEnd_wf false _ hwr
      generalize findEnd false a.rest = ptr at hB hwp
      have hin : a.rest.take (trimParens a.rest 0 (a.rest.length - ptr.length) a.parens) <+: B := by
        rw [← hB]; exact trim_prefix a.parens
      obtain ⟨src, out, h1, h2, h3, h4⟩ := key B ptr _ hB.symm hin hwp (by simp [henh])
      rw [hB] at h1
      exact ⟨src, out, ptr, h1, h2, h3, hwp, by simp [henh], h4⟩
    · obtain ⟨src, out, h1, h2, h3, h4⟩ := key a.rest [] a.rest (by simp) (List.prefix_refl _) Wf.nil (fun _ => rfl)
      have e : (collect enh 10 a.rest).map (fun (x : List Nat × List Nat) => (x.1, x.2 ++ (a.rest ++ []).drop a.rest.length)) =
          collect enh 10 a.rest := by simp
      rw [e] at h1
      exact ⟨src, out, [], h1, h2, h3, Wf.nil, fun _ => rfl, h4⟩

/-- The text written earlier stays. -/
theorem resolveLoop_acc (lookup : Lookup) (enh : Bool) : ∀ (n : Nat) (text out : List Nat) (r : Bool), text.length ≤ n →
    resolveLoop lookup enh out r text = (resolveLoop lookup enh [] false text).map fun p => (out ++ p.1, r || p.2) := by
  intro n
  induction n with
  | zero =>
    intro text out r h
    have : text = [] := List.length_eq_zero_iff.1 (by omega)
    subst this
    rw [resolveLoop, if_neg (by simp [more]), resolveLoop, if_neg (by simp [more])]
    simp
  | succ n ih =>
    intro text out r h
    rw [resolveLoop]
    conv => rhs; rw [resolveLoop]
    split
    · split
      · rfl
      · split
        · simp
        · simp only
          split
          · rename_i x _ hlt
            rw [ih _ _ _ (by omega)]
            conv => rhs; rw [ih _ _ _ (by omega)]
            rw [Option.map_map]
            congr 1
            funext p
            simp [Bool.or_assoc]
          · rfl
    · simp

theorem Wf_ne {l : List Nat} (h : Wf l) (hm : more l = true) : l ≠ [] := (more_eq h.noZero).1 hm

/-- The pieces of a line. -/
theorem resolveLoop_spec (lookup : Lookup) (enh : Bool) : ∀ (n : Nat) (text : List Nat), text.length ≤ n → Wf text → text.length < 32768 →
    ∃ (o : List Nat) (b : Bool) (ps : List Piece), resolveLoop lookup enh [] false text = some (o, b) ∧ (∀ p ∈ ps, p.Ok lookup) ∧ text = ps.flatMap Piece.src ∧
      b = ps.any Piece.expanded ∧ (b = true ∨ enh = true → o = ps.flatMap Piece.out) := by
  intro n
  induction n with
  | zero =>
    intro text h hw _
    have : text = [] := List.length_eq_zero_iff.1 (by omega)
    subst this
    exact ⟨[], false, [], by rw [resolveLoop, if_neg (by simp [more])], by simp, by simp, by simp, by simp⟩
  | succ n ih =>
    intro text h hw hlen
    rw [resolveLoop]
    split
    · rename_i hm
      -- one step, for a piece `p` followed by `rest`
      have step : ∀ (p : Piece) (rest : List Nat), text = p.src ++ rest → Wf rest → p.Ok lookup →
          (p.src ≠ [] ∨ ∃ c, rest.head? = some c ∧ (c = 124 ∨ c = 38)) → (enh = false → rest = [] ∧ p.expanded = true) →
          ∃ (o : List Nat) (b : Bool) (ps : List Piece), (if _h : (copySpace (copyDelims rest).2).2.length < text.length then
              resolveLoop lookup enh ([] ++ p.out ++ (copyDelims rest).1 ++ (copySpace (copyDelims rest).2).1) (false || p.expanded) (copySpace (copyDelims rest).2).2
              else none) = some (o, b) ∧ (∀ p ∈ ps, p.Ok lookup) ∧ text = ps.flatMap Piece.src ∧
            b = ps.any Piece.expanded ∧ (b = true ∨ enh = true → o = ps.flatMap Piece.out) := by
        intro p rest ht hwr hp hprog henh
        obtain ⟨d1, d2, d3, d4⟩ := copyDelims_spec rest hwr
        obtain ⟨e1, e2⟩ := copySpace_spec _ d2
        have hsh : (copySpace (copyDelims rest).2).2.length < text.length := by
          have l1 := congrArg List.length d1
          have l2 := congrArg List.length e1
          have l3 := congrArg List.length ht
          simp at l1 l2 l3
          rcases hprog with h | ⟨c, hc, hc'⟩
          · have := List.length_pos_iff.2 h; omega
          · have := List.length_pos_iff.2 (d4 c hc hc'); omega
        rw [dif_pos hsh, resolveLoop_acc lookup enh _ _ _ _ (Nat.le_refl _)]
        obtain ⟨o, b, ps, h1, h2, h3, h4, h5⟩ := ih _ (by omega) e2 (by omega)
        rw [h1]
        refine ⟨_, _, p :: ⟨false, (copyDelims rest).1 ++ (copySpace (copyDelims rest).2).1, (copyDelims rest).1 ++ (copySpace (copyDelims rest).2).1⟩ :: ps, rfl, ?_, ?_, ?_, ?_⟩
        · intro x hx
          rcases List.mem_cons.1 hx with rfl | hx
          · exact hp
          · rcases List.mem_cons.1 hx with rfl | hx
            · simp [Piece.Ok]
            · exact h2 x hx
        · simp only [List.flatMap_cons]
          rw [← h3, List.append_assoc, e1, d1, ht]
        · simp [h4]
        · intro hb
          have ho : o = ps.flatMap Piece.out := by
            rcases hb with hb | hb
            · cases henh' : enh with
              | true => exact h5 (.inr henh')
              | false =>
                obtain ⟨hr, -⟩ := henh henh'
                subst hr
                have : (copySpace (copyDelims []).2).2 = [] := rfl
                rw [this, resolveLoop, if_neg (by simp [more])] at h1
                rw [this] at h3
                injection h1 with h1
                injection h1 with h1 h1'
                subst h1
                have hsrc : ∀ q ∈ ps, q.src = [] := by
                  intro q hq
                  exact List.flatMap_eq_nil_iff.1 h3.symm q hq
                refine (List.flatMap_eq_nil_iff.2 ?_).symm
                intro q hq
                have hok := h2 q hq
                unfold Piece.Ok at hok
                rw [← h1'] at h4
                have hx : q.expanded = false := by
                  cases hqe : q.expanded with
                  | false => rfl
                  | true => exact absurd h4.symm (by simp; exact ⟨q, hq, hqe⟩)
                rw [hx] at hok
                simpa using hok.trans (hsrc q hq)
            · exact h5 (.inr hb)
          simp [ho]
      rcases resolveImpl_spec lookup enh hw hlen with hi | ⟨src, out, rest, hi, hs, hne, hwr, hr, hcall⟩
      · rw [hi]
        simp only
        cases enh with
        | false =>
          rw [if_pos (by simp)]
          exact ⟨[], false, [⟨false, text, text⟩], rfl, by simp [Piece.Ok], by simp, by simp, by simp⟩
        | true =>
          rw [if_neg (by simp)]
          obtain ⟨B, hB⟩ := findEnd_suffix false text
          have hbt : between text (findEnd false text) = B := by
            conv => lhs; arg 1; rw [← hB]
            simp [between]
          have hprog : B ≠ [] ∨ ∃ c, (findEnd false text).head? = some c ∧ (c = 124 ∨ c = 38) := by
            by_cases hBn : B = []
            · right
              have hf : findEnd false text = text := by simpa [hBn] using hB
              rcases findEnd_stop false text with h | h | h
              · rw [hf] at h; simp [hm] at h
              · rw [hf] at h ⊢
                obtain ⟨l', hl', -⟩ := hw.head hm (by omega)
                exact ⟨124, by rw [hl', h]; rfl, .inl rfl⟩
              · rw [hf] at h ⊢
                obtain ⟨l', hl', -⟩ := hw.head hm (by omega)
                exact ⟨38, by rw [hl', h]; rfl, .inr rfl⟩
            · exact .inl hBn
          have hh := step ⟨false, B, B⟩ (findEnd false text) hB.symm (findEnd_wf _ _ hw) (by simp [Piece.Ok]) hprog (by simp)
          simp only [Option.getD_none, hbt]
          simpa using hh
      · rw [hi]
        simp only
        rw [if_neg (by simp)]
        have := step ⟨true, src, out⟩ rest hs hwr (by simpa [Piece.Ok] using hcall) (.inl hne) (fun h => ⟨hr h, rfl⟩)
        simpa using this
    · rename_i hm
      have : text = [] := by
        rcases Classical.em (text = []) with h | h
        · exact h
        · exact absurd ((more_eq hw.noZero).2 h) hm
      subst this
      exact ⟨[], false, [], rfl, by simp, by simp, by simp, by simp⟩

end Clink.Doskey
