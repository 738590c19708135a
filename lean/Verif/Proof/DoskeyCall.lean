import Verif.Proof.DoskeyResolve

namespace Clink.Doskey

open Utf (more next8 specUtf8 IsText)
open Spec

theorem getAlias_name (lookup : Lookup) (enh : Bool) {name : List Nat} (hn : Name name) {rest : List Nat} (hr : ∀ c ∈ rest, IsText c)
    (hs : rest = [] ∨ rest.head? = some 32) {text : List Nat} (hl : lookup (flat name) = some text) :
    getAlias lookup enh (flat name ++ flat rest) = some ⟨[], flat name, text, 0, flat (rest.dropWhile (· == 32))⟩ := by
  unfold getAlias
  rw [tryAlias_name lookup false hn (by simp) hr (by rcases hs with h | h <;> simp [h]), hl]
  rfl

theorem getAlias_plain (lookup : Lookup) (enh : Bool) {name : List Nat} (hn : Name name) (h2 : ∀ c ∈ name, c ≠ 124 ∧ c ≠ 38)
    {rest : List Nat} (hr : ∀ c ∈ rest, IsText c)
    (hs : rest = [] ∨ rest.head? = some 32) (hl : lookup (flat name) = none) :
    getAlias lookup enh (flat name ++ flat rest) = none := by
  unfold getAlias
  rw [tryAlias_name lookup false hn (by simp) hr (by rcases hs with h | h <;> simp [h]), hl]
  simp only [Option.map_none]
  rw [tryAlias_name lookup true hn (fun c hc _ => h2 c hc) hr (by rcases hs with h | h <;> simp [h]), hl]
  simp

theorem dropWhile_mem {cs : List Nat} {c : Nat} (h : c ∈ cs.dropWhile (· == 32)) : c ∈ cs :=
  (List.dropWhile_suffix _).subset h

/-- The values that the expansion of a call has. -/
theorem call_expand {q : Bool} {as : List Nat} {ws : List (List Nat)} (ha : ∀ c ∈ as, IsText c) (hw : Words q as ws)
    (hlen : ∀ w ∈ ws, (flat w).length < 32768) (tail : List Nat) {ts : List Tag} {body : List Nat} (hb : Body ts body) :
    expand ((collect q 10 (flat (as.dropWhile (· == 32)))).map fun (x : List Nat × List Nat) => (x.1, x.2 ++ tail))
      (starText ((collect q 10 (flat (as.dropWhile (· == 32)))).map fun (x : List Nat × List Nat) => (x.1, x.2 ++ tail)) tail.length) body =
    some (ts.flatMap (Tag.value (ws.map flat) (flat (as.dropWhile (· == 32))))) := by
  have hw' := located_dropWhile hw
  have hd : ∀ c ∈ as.dropWhile (· == 32), IsText c := fun c hc => ha c (dropWhile_mem hc)
  rw [collect_words hw' hd 10]
  have hpre := located_prefix hw'
  have hfst := located_fst (as.dropWhile (· == 32)) ws
  rw [expand_spec _ _ hb]
  · congr 1
    have e1 : ((((located (as.dropWhile (· == 32)) ws).take 10).map fun (x : List Nat × List Nat) => (x.1, x.2 ++ tail)).map (·.1)) =
        (ws.map flat).take 10 := by
      rw [List.map_map, ← hfst, List.map_take]; rfl
    rw [e1, value_congr hb]
    congr 2
    cases ws with
    | nil => rw [words_nil hw]; rfl
    | cons w ws =>
      have hdd : (as.dropWhile (· == 32)).dropWhile (· == 32) = as.dropWhile (· == 32) := by
        obtain ⟨n, l, rfl, hl⟩ := spaces_exist as
        rw [dropWhile_replicate n hl]
        simpa using dropWhile_replicate 0 hl
      simp [located, starText, hdd]
  · intro a ha'
    obtain ⟨x, hx, rfl⟩ := List.mem_map.1 ha'
    have hx' := List.mem_of_mem_take hx
    refine ⟨(hpre x hx').trans (List.prefix_append _ _), ?_⟩
    have : x.1 ∈ ws.map flat := by rw [← hfst]; exact List.mem_map.2 ⟨x, hx', rfl⟩
    obtain ⟨w, hw1, hw2⟩ := List.mem_map.1 this
    simp only [← hw2]
    exact hlen w hw1

theorem splits_text (q : Bool) {tcs : List Nat} (h : ∀ c ∈ tcs, IsText c ∧ c ≠ 34) (hq : q = false) : splits q (flat tcs) = true := by
  suffices hsuf : ∀ (n : Nat) (ds : List Nat), ds.length ≤ n → (∀ c ∈ ds, IsText c ∧ c ≠ 34) → splits false (flat ds) = true by
    rw [hq]; exact hsuf _ tcs (Nat.le_refl _) h
  intro n
  induction n with
  | zero =>
    intro ds hd _
    have : ds = [] := List.length_eq_zero_iff.1 (by omega)
    subst this
    simp [flat, splits, more]
  | succ n ih =>
    intro ds hd h
    cases ds with
    | nil => simp [flat, splits, more]
    | cons c ds =>
      obtain ⟨hc, h34⟩ := h c (by simp)
      have ih1 := ih ds (by simp at hd; omega) fun x hx => h x (List.mem_cons_of_mem _ hx)
      rw [flat_cons, splits, dif_pos (more_flat hc _)]
      simp only [peek_flat hc, next_flat hc, h34, if_false, ih1]
      split
      · rfl
      · split
        · simp
        · split
          · cases ds with
            | nil =>
              have e : next (flat []) = [] := rfl
              rw [e, splits, dif_neg (by simp [more])]
            | cons d ds =>
              have hdd := (h d (by simp)).1
              rw [flat_cons, next_flat hdd]
              exact ih ds (by simp at hd; omega) fun x hx => h x (by simp [hx])
          · rfl

theorem findEnd_quoted {x : List Nat} (h : 34 ∉ x) (ht : ∀ c ∈ x, IsText c) (l : List Nat) :
    findEnd true (flat x ++ (34 :: l)) = findEnd false l := by
  have h34 : IsText 34 := ⟨by decide, by decide, by decide⟩
  induction x with
  | nil =>
    have e : 34 :: l = specUtf8 34 ++ l := by rw [spec_ascii (by omega)]; rfl
    rw [flat_nil, List.nil_append, e, findEnd, dif_pos (more_flat h34 _)]
    simp only [peek_flat h34, next_flat h34, if_true]
    rfl
  | cons c x ih =>
    have hc := ht c (by simp)
    have hne : c ≠ 34 := fun he => h (by simp [he])
    rw [flat_cons, List.append_assoc, findEnd, dif_pos (more_flat hc _)]
    simp only [peek_flat hc, next_flat hc, hne, if_false, if_true]
    exact ih (fun hx => h (List.mem_cons_of_mem _ hx)) fun d hd => ht d (List.mem_cons_of_mem _ hd)

/-- A command ends at the separator. -/
theorem findEnd_cmd {a : List Nat} (h : Cmd a) : (∀ c ∈ a, IsText c) → ∀ l, findEnd false (flat a ++ l) = findEnd false l := by
  induction h with
  | nil => intro _ l; rfl
  | @char c r hc _ ih =>
    intro ht l
    have hct := ht c (by simp)
    simp only [List.mem_cons, List.not_mem_nil, or_false, not_or] at hc
    rw [flat_cons, List.append_assoc, findEnd, dif_pos (more_flat hct _)]
    simp only [peek_flat hct, next_flat hct]
    rw [if_neg hc.1, if_neg (by simp), if_neg (fun h => hc.2.2.1 h.1), if_neg (fun h => hc.2.1 h.1), if_neg (by omega)]
    exact ih (fun d hd => ht d (List.mem_cons_of_mem _ hd)) l
  | @quoted x r hx _ ih =>
    intro ht l
    have h34 : IsText 34 := ⟨by decide, by decide, by decide⟩
    have e34 : specUtf8 34 = [34] := rfl
    rw [flat_cons, flat_append, flat_cons, List.append_assoc, findEnd, dif_pos (more_flat h34 _)]
    simp only [peek_flat h34, next_flat h34, if_true]
    rw [List.append_assoc, e34, List.append_assoc, List.cons_append, List.nil_append]
    rw [show (!false) = true from rfl, findEnd_quoted hx (fun c hc => ht c (by simp [hc]))]
    exact ih (fun c hc => ht c (by simp [hc])) l
  | @caret c r _ ih =>
    intro ht l
    have h94 : IsText 94 := ⟨by decide, by decide, by decide⟩
    have hct := ht c (by simp)
    rw [flat_cons, flat_cons, List.append_assoc, List.append_assoc, findEnd, dif_pos (more_flat h94 _)]
    simp only [peek_flat h94, next_flat h94]
    rw [if_neg (by omega), if_neg (by simp), if_neg (by omega), if_pos ⟨trivial, more_flat hct _⟩, next_flat hct]
    exact ih (fun d hd => ht d (by simp [hd])) l
  | @dup r _ ih =>
    intro ht l
    have h62 : IsText 62 := ⟨by decide, by decide, by decide⟩
    have h38 : IsText 38 := ⟨by decide, by decide, by decide⟩
    rw [flat_cons, flat_cons, List.append_assoc, List.append_assoc, findEnd, dif_pos (more_flat h62 _)]
    simp only [peek_flat h62, next_flat h62]
    rw [if_neg (by omega), if_neg (by simp), peek_flat h38, if_pos ⟨trivial, rfl⟩, next_flat h38]
    exact ih (fun d hd => ht d (by simp [hd])) l
  | @redirect c r hc _ ih =>
    intro ht l
    have h62 : IsText 62 := ⟨by decide, by decide, by decide⟩
    have hct := ht c (by simp)
    rw [flat_cons, List.append_assoc, findEnd, dif_pos (more_flat h62 _)]
    simp only [peek_flat h62, next_flat h62]
    rw [if_neg (by omega), if_neg (by simp), if_neg, if_neg (by omega), if_neg (by omega)]
    · exact ih (fun d hd => ht d (List.mem_cons_of_mem _ hd)) l
    · rw [flat_cons, List.append_assoc, peek_flat hct]; omega

theorem findEnd_sep {a : List Nat} (h : Cmd a) (ht : ∀ c ∈ a, IsText c) {s : Nat} (hs : s = 124 ∨ s = 38)
    (rest : List Nat) : findEnd false (flat a ++ s :: rest) = s :: rest := by
  rw [findEnd_cmd h ht]
  have hst : IsText s := ⟨by omega, by omega, by omega⟩
  have e : s :: rest = specUtf8 s ++ rest := by rw [spec_ascii (by omega)]; rfl
  rw [e, findEnd, dif_pos (more_flat hst _)]
  simp only [peek_flat hst]
  rw [if_neg (by omega), if_neg (by simp), if_neg (by omega), if_neg (by omega), if_pos hs]

theorem cmd_dropWhile {a : List Nat} (h : Cmd a) : Cmd (a.dropWhile (· == 32)) := by
  induction h with
  | nil => exact .nil
  | @char c r hc h ih =>
    rw [List.dropWhile_cons]
    split
    · exact ih
    · exact .char hc h
  | quoted hx h _ => exact .quoted hx h
  | caret h _ => exact .caret h
  | dup h _ => exact .dup h
  | redirect hc h _ => exact .redirect hc h

/-- The separators and the space behind them. -/
theorem copy_sep {sep sp tail : List Nat} (hsep : ∀ c ∈ sep, c = 124 ∨ c = 38) (hsp : sp = [32] ∨ sp = [] ∧ tail.head? ≠ some 32)
    (ht : ∀ c, tail.head? = some c → c ≠ 124 ∧ c ≠ 38) :
    copyDelims (sep ++ (sp ++ tail)) = (sep, sp ++ tail) ∧ copySpace (sp ++ tail) = (sp, tail) := by
  refine ⟨?_, ?_⟩
  · induction sep with
    | nil =>
      cases h : sp ++ tail with
      | nil => simp [copyDelims, h]
      | cons c l =>
        have : ¬ (c = 124 ∨ c = 38) := by
          rcases hsp with rfl | ⟨rfl, -⟩
          · simp at h; omega
          · simp at h
            have := ht c (by simp [h]); omega
        simp [copyDelims, h, this]
    | cons c sep ih =>
      rw [List.cons_append, copyDelims, if_pos (hsep c (by simp)), ih fun d hd => hsep d (List.mem_cons_of_mem _ hd)]
  · rcases hsp with rfl | ⟨rfl, h⟩
    · rfl
    · cases tail with
      | nil => rfl
      | cons c l =>
        simp at h
        unfold copySpace
        split
        · rename_i e; simp at e; exact absurd e.1 h
        · rfl

/-- With the enhancements on, what is not expanded is copied. -/
theorem resolveLoop_tail (lookup : Lookup) {tail : List Nat} (hw : Wf tail) (hlen : tail.length < 32768) :
    ∃ r, resolve lookup true tail = some r ∧ ∃ b, resolveLoop lookup true [] false tail = some (r.getD tail, b) ∧ (b = r.isSome) := by
  obtain ⟨o, b, ps, h1, h2, h3, h4, h5⟩ := resolveLoop_spec lookup true _ tail (Nat.le_refl _) hw hlen
  unfold resolve
  rw [h1]
  cases b with
  | true => exact ⟨some o, rfl, true, rfl, rfl⟩
  | false =>
    refine ⟨none, rfl, false, ?_, rfl⟩
    have : o = tail := by
      rw [h5 (.inr rfl), h3]
      clear h1 h3 h5
      induction ps with
      | nil => rfl
      | cons p ps ih =>
        have hp := h2 p (by simp)
        simp only [List.any_cons] at h4
        have h4' := h4.symm
        rw [Bool.or_eq_false_iff] at h4'
        unfold Piece.Ok at hp
        rw [h4'.1] at hp
        simp only [List.flatMap_cons]
        simp only [Bool.false_eq_true, if_false] at hp
        rw [ih (fun q hq => h2 q (List.mem_cons_of_mem _ hq)) h4'.2.symm, hp]
    rw [this]; rfl

end Clink.Doskey
