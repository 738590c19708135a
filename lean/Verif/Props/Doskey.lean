import Verif.Proof.DoskeyCall

/-!
Doskey aliases (C11, C12).
-/

namespace Clink.Doskey

open Utf (more next8 specUtf8 IsText)
open Spec

/-- C11.  A line is cut into pieces.  Calls of aliases are replaced by the text of the alias; everything
else is copied.  The line is replaced only if there was a call. -/
theorem C11_pieces (lookup : Lookup) (enh : Bool) {line : List Nat} (hw : Wf line) (hlen : line.length < 32768) :
    ∃ ps : List Piece, (∀ p ∈ ps, p.Ok lookup) ∧ line = ps.flatMap Piece.src ∧
      resolve lookup enh line = some (if ps.any Piece.expanded then some (ps.flatMap Piece.out) else none) := by
  obtain ⟨o, b, ps, h1, h2, h3, h4, h5⟩ := resolveLoop_spec lookup enh _ line (Nat.le_refl _) hw hlen
  refine ⟨ps, h2, h3, ?_⟩
  unfold resolve
  rw [h1, ← h4]
  cases b with
  | false => rfl
  | true => simp [h5]

/-- C11.  Without aliases no line is changed. -/
theorem C11_no_alias (enh : Bool) {line : List Nat} (hw : Wf line) (hlen : line.length < 32768) {lookup : Lookup}
    (hl : ∀ name, name <:+: line → name ≠ [] → lookup name = none) : resolve lookup enh line = some none := by
  obtain ⟨ps, h1, h2, h3⟩ := C11_pieces lookup enh hw hlen
  rw [h3, if_neg]
  intro hany
  obtain ⟨p, hp, he⟩ := List.any_eq_true.1 hany
  have := h1 p hp
  unfold Piece.Ok at this
  rw [he] at this
  obtain ⟨pre, name, post, body, _, _, _, e1, -, e3, e4, -⟩ := this
  have hin : name <:+: line := by
    rw [h2]
    obtain ⟨l1, l2, rfl⟩ := List.append_of_mem hp
    simp only [List.flatMap_append, List.flatMap_cons, e1]
    exact ⟨l1.flatMap Piece.src ++ pre, post ++ l2.flatMap Piece.src, by simp⟩
  rw [hl name hin e3] at e4
  exact absurd e4 (by simp)

/-- C11.  A command that is no alias is copied, and the commands behind the separator are treated as if they
were a line of their own. -/
theorem C11_next_command {lookup : Lookup} {name args tail sep sp : List Nat} (hn : Name name) (hn' : ∀ c ∈ name, c ≠ 124 ∧ c ≠ 38)
    (hl : lookup (flat name) = none)
    (ha : ∀ c ∈ args, IsText c) (hcmd : Cmd (name ++ args)) (hs : args.head? = some 32)
    (hsep : ∀ c ∈ sep, c = 124 ∨ c = 38) (hsepne : sep ≠ []) (hsp : sp = [32] ∨ sp = [] ∧ tail.head? ≠ some 32)
    (htail : ∀ c, tail.head? = some c → c ≠ 124 ∧ c ≠ 38) (hw : Wf tail) (hlen : tail.length < 32768) :
    resolve lookup true (flat (name ++ args) ++ (sep ++ (sp ++ tail))) =
      (resolve lookup true tail).map fun r => r.map fun t => flat (name ++ args) ++ sep ++ sp ++ t := by
  obtain ⟨r, hr, b, hb, hbr⟩ := resolveLoop_tail lookup hw hlen
  obtain ⟨c0, sep', rfl⟩ := List.exists_cons_of_ne_nil hsepne
  obtain ⟨tcs, ht, rfl⟩ := hw
  have hflat : ∀ l : List Nat, (∀ c ∈ l, c < 128) → flat l = l := by
    intro l
    induction l with
    | nil => intro _; rfl
    | cons c l ih => intro h; rw [flat_cons, spec_ascii (h c (by simp)), ih fun d hd => h d (List.mem_cons_of_mem _ hd)]; rfl
  have hsepf : flat (c0 :: sep') = c0 :: sep' := hflat _ fun c hc => by have := hsep c hc; omega
  have hspf : flat sp = sp := hflat _ fun c hc => by
    rcases hsp with rfl | ⟨rfl, -⟩
    · simp at hc; omega
    · simp at hc
  have hrest : ∀ c ∈ args ++ (c0 :: sep' ++ (sp ++ tcs)), IsText c := by
    intro c hc
    simp only [List.mem_append] at hc
    rcases hc with h | h | h | h
    · exact ha c h
    · have := hsep c h; exact ⟨by omega, by omega, by omega⟩
    · rcases hsp with rfl | ⟨rfl, -⟩
      · simp at h; subst h; exact isText32
      · simp at h
    · exact ht c h
  have hga := getAlias_plain lookup true hn hn' hrest
    (.inr (by cases args with | nil => simp at hs | cons c l => simpa using hs)) hl
  have etext : flat (name ++ args) ++ (c0 :: sep' ++ (sp ++ flat tcs)) = flat name ++ flat (args ++ (c0 :: sep' ++ (sp ++ tcs))) := by
    simp only [flat_append, List.append_assoc, hsepf, hspf]
  have hri : resolveImpl lookup true (flat (name ++ args) ++ (c0 :: sep' ++ (sp ++ flat tcs))) = some none := by
    unfold resolveImpl; rw [etext, hga]
  have hfe : findEnd false (flat (name ++ args) ++ (c0 :: sep' ++ (sp ++ flat tcs))) = c0 :: sep' ++ (sp ++ flat tcs) := by
    have := findEnd_sep hcmd (fun c hc => by
      rcases List.mem_append.1 hc with h | h
      · exact (hn.text c h).1
      · exact ha c h) (hsep c0 (by simp)) (sep' ++ (sp ++ flat tcs))
    simpa using this
  obtain ⟨hd1, hd2⟩ := copy_sep hsep hsp htail
  have hne : flat (name ++ args) ≠ [] := flat_ne_nil (by simp [hn.ne])
  have hmore : more (flat (name ++ args) ++ (c0 :: sep' ++ (sp ++ flat tcs))) = true := by
    obtain ⟨c, l, rfl, hc, -⟩ := hn.cases
    rw [List.cons_append, flat_cons, List.append_assoc]; exact more_flat hc _
  unfold resolve at hr ⊢
  rw [resolveLoop, if_pos hmore, hri]
  simp only
  rw [if_neg (by simp)]
  simp only [Option.getD_none, hfe, hd1, hd2]
  rw [dif_pos, resolveLoop_acc lookup true _ _ _ _ (Nat.le_refl _), hb]
  · subst hbr
    cases r with
    | none => simp
    | some t => simp [between]
  · have := List.length_pos_iff.2 hne
    simp; omega

/-- C12.  Tags in the text of an alias: the text is made of tags, and the expansion has their values. -/
theorem C12_tags {args : List (List Nat × List Nat)} (h : ∀ a ∈ args, a.1 <+: a.2 ∧ a.1.length < 32768) (star body : List Nat) :
    ∃ ts, Body ts body ∧ expand args star body = some (ts.flatMap (Tag.value (args.map (·.1)) star)) := by
  obtain ⟨ts, hb⟩ := body_exists body
  exact ⟨ts, hb, expand_spec h star hb⟩

/-- C12.  Arguments: the text has words, and the first ten are found. -/
theorem C12_words (q : Bool) {cs : List Nat} (h : ∀ c ∈ cs, IsText c) :
    ∃ ws, Words q cs ws ∧ (collect q 10 (flat cs)).map (·.1) = (ws.map flat).take 10 := by
  obtain ⟨ws, hw⟩ := words_exist q cs
  refine ⟨ws, hw, ?_⟩
  rw [collect_words hw h, List.map_take, located_fst]

/-- C12.  The call of an alias is replaced by its text, where `$1` to `$9` stand for the words after the name
and `$*` for everything from the first word on.  (With the enhancements on, a line of one command; otherwise
any line.) -/
theorem C12_call {lookup : Lookup} {enh : Bool} {name args body : List Nat} {ws : List (List Nat)} {ts : List Tag} (hn : Name name)
    (hl : lookup (flat name) = some body) (hb : Body ts body)
    (hat : ∀ c ∈ args, IsText c) (hcmd : enh = true → Cmd args ∨ ∀ c ∈ args, c ≠ 124 ∧ c ≠ 38) (hs : args = [] ∨ args.head? = some 32)
    (hw : Words enh args ws) (hlen : ∀ w ∈ ws, (flat w).length < 32768) :
    resolve lookup enh (flat (name ++ args)) =
      some (some (ts.flatMap (Tag.value (ws.map flat) (flat (args.dropWhile (· == 32)))))) := by
  have hga := getAlias_name lookup enh hn hat hs hl
  have hex := call_expand hat hw hlen [] hb
  have e0 : (collect enh 10 (flat (args.dropWhile (· == 32)))).map (fun (x : List Nat × List Nat) => (x.1, x.2 ++ [])) =
      collect enh 10 (flat (args.dropWhile (· == 32))) := by simp
  rw [e0] at hex
  have hri : resolveImpl lookup enh (flat (name ++ args)) =
      some (some (ts.flatMap (Tag.value (ws.map flat) (flat (args.dropWhile (· == 32)))), [])) := by
    unfold resolveImpl
    rw [flat_append, hga]
    simp only
    split
    · rename_i hsp
      have henh : enh = true := by simp at hsp; exact hsp.1
      have hfe : findEnd false (flat (args.dropWhile (· == 32))) = [] := by
        rcases hcmd henh with h | h
        · have := findEnd_cmd (cmd_dropWhile h) (fun c hc => hat c (dropWhile_mem hc)) []
          rw [List.append_nil] at this
          rw [this, findEnd, dif_neg (by simp [more])]
        · exact findEnd_none false fun c hc => ⟨hat c (dropWhile_mem hc), h c (dropWhile_mem hc)⟩
      rw [hfe, trimParens_zero]
      simp only [List.length_nil, Nat.sub_zero, List.take_length, List.drop_length]
      rw [e0]
      simp only [List.length_nil] at hex
      rw [hex]; rfl
    · simp only [List.length_nil] at hex
      rw [hex]; rfl
  have hmore : more (flat (name ++ args)) = true := by
    obtain ⟨c, l, rfl, hc, -⟩ := hn.cases
    rw [List.cons_append, flat_cons]; exact more_flat hc _
  have hne : flat (name ++ args) ≠ [] := flat_ne_nil (by simp [hn.ne])
  unfold resolve
  rw [resolveLoop, if_pos hmore, hri]
  simp only
  rw [if_neg (by simp)]
  have hlt : (copySpace (copyDelims []).2).2.length < (flat (name ++ args)).length := by
    have := List.length_pos_iff.2 hne
    simpa [copyDelims, copySpace] using this
  simp only [Option.getD_some]
  rw [dif_pos hlt, resolveLoop, if_neg (by simp [copyDelims, copySpace, more])]
  simp [copyDelims, copySpace]

/-- C12.  The same in a line with several commands: the alias gets the words up to the separator, and the rest
of the line is treated as if it were a line of its own. -/
theorem C12_call_then {lookup : Lookup} {name args body tail sep sp : List Nat} {ws : List (List Nat)} {ts : List Tag} (hn : Name name)
    {bcs : List Nat} (hbc : ∀ c ∈ bcs, IsText c ∧ c ≠ 34) (hbody : body = flat bcs)
    (hl : lookup (flat name) = some body) (hb : Body ts body)
    (ha : ∀ c ∈ args, IsText c) (hcmd : Cmd args) (hs : args.head? = some 32)
    (hws : Words true args ws) (hlenw : ∀ w ∈ ws, (flat w).length < 32768)
    (hsep : ∀ c ∈ sep, c = 124 ∨ c = 38) (hsepne : sep ≠ []) (hsp : sp = [32] ∨ sp = [] ∧ tail.head? ≠ some 32)
    (htail : ∀ c, tail.head? = some c → c ≠ 124 ∧ c ≠ 38) (hw : Wf tail) (hlen : tail.length < 32768) :
    resolve lookup true (flat (name ++ args) ++ (sep ++ (sp ++ tail))) =
      (resolve lookup true tail).map fun r =>
        some (ts.flatMap (Tag.value (ws.map flat) (flat (args.dropWhile (· == 32)))) ++ sep ++ sp ++ r.getD tail) := by
  obtain ⟨r, hr, b, hbb, hbr⟩ := resolveLoop_tail lookup hw hlen
  obtain ⟨c0, sep', rfl⟩ := List.exists_cons_of_ne_nil hsepne
  obtain ⟨tcs, ht, rfl⟩ := hw
  have hflat : ∀ l : List Nat, (∀ c ∈ l, c < 128) → flat l = l := by
    intro l
    induction l with
    | nil => intro _; rfl
    | cons c l ih => intro h; rw [flat_cons, spec_ascii (h c (by simp)), ih fun d hd => h d (List.mem_cons_of_mem _ hd)]; rfl
  have hsepf : flat (c0 :: sep') = c0 :: sep' := hflat _ fun c hc => by have := hsep c hc; omega
  have hspf : flat sp = sp := hflat _ fun c hc => by
    rcases hsp with rfl | ⟨rfl, -⟩
    · simp at hc; omega
    · simp at hc
  have hat : ∀ c ∈ args, IsText c := ha
  have hrest : ∀ c ∈ args ++ (c0 :: sep' ++ (sp ++ tcs)), IsText c := by
    intro c hc
    simp only [List.mem_append] at hc
    rcases hc with h | h | h | h
    · exact ha c h
    · have := hsep c h; exact ⟨by omega, by omega, by omega⟩
    · rcases hsp with rfl | ⟨rfl, -⟩
      · simp at h; subst h; exact isText32
      · simp at h
    · exact ht c h
  have hga := getAlias_name lookup true hn hrest
    (.inr (by cases args with | nil => simp at hs | cons c l => simpa using hs)) hl
  have etext : flat (name ++ args) ++ (c0 :: sep' ++ (sp ++ flat tcs)) = flat name ++ flat (args ++ (c0 :: sep' ++ (sp ++ tcs))) := by
    simp only [flat_append, List.append_assoc, hsepf, hspf]
  have edrop : flat ((args ++ (c0 :: sep' ++ (sp ++ tcs))).dropWhile (· == 32)) =
      flat (args.dropWhile (· == 32)) ++ (c0 :: (sep' ++ (sp ++ flat tcs))) := by
    have hc0 : (c0 :: sep' ++ (sp ++ tcs)).head? ≠ some 32 := by have := hsep c0 (by simp); simp; omega
    obtain ⟨n, l, rfl, hl'⟩ := spaces_exist args
    rw [dropWhile_replicate n hl', List.append_assoc, dropWhile_replicate]
    · rw [flat_append, flat_append, flat_append, hsepf, hspf]; simp
    · cases l with
      | nil => simpa using hc0
      | cons d l => simpa using hl'
  have hex := call_expand hat hws hlenw (c0 :: (sep' ++ (sp ++ flat tcs))) hb
  have hri : resolveImpl lookup true (flat (name ++ args) ++ (c0 :: sep' ++ (sp ++ flat tcs))) =
      some (some (ts.flatMap (Tag.value (ws.map flat) (flat (args.dropWhile (· == 32)))), c0 :: (sep' ++ (sp ++ flat tcs)))) := by
    unfold resolveImpl
    rw [etext, hga]
    simp only
    rw [if_pos (by rw [hbody]; simpa using splits_text false hbc rfl), edrop,
      findEnd_sep (cmd_dropWhile hcmd) (fun c hc => ha c (dropWhile_mem hc)) (hsep c0 (by simp)), trimParens_zero]
    simp only [List.length_append, Nat.add_sub_cancel, List.take_left, List.drop_left, List.nil_append]
    simp only [List.length_append] at hex
    rw [hex]; rfl
  obtain ⟨hd1, hd2⟩ := copy_sep hsep hsp htail
  have hne : flat (name ++ args) ≠ [] := flat_ne_nil (by simp [hn.ne])
  have hmore : more (flat (name ++ args) ++ (c0 :: sep' ++ (sp ++ flat tcs))) = true := by
    obtain ⟨c, l, rfl, hc, -⟩ := hn.cases
    rw [List.cons_append, flat_cons, List.append_assoc]; exact more_flat hc _
  unfold resolve at hr ⊢
  rw [resolveLoop, if_pos hmore, hri]
  simp only
  rw [if_neg (by simp)]
  rw [List.cons_append] at hd1
  simp only [Option.getD_some, hd1, hd2]
  rw [dif_pos, resolveLoop_acc lookup true _ _ _ _ (Nat.le_refl _), hbb]
  · subst hbr
    cases r with
    | none => simp
    | some t => simp
  · have := List.length_pos_iff.2 hne
    simp; omega

/-! Examples -/

/-- `foo=bar $2 $1$g$*` -/
def exTable : Lookup := fun n => if n = [102, 111, 111] then some [98, 97, 114, 32, 36, 50, 32, 36, 49, 36, 103, 36, 42] else none

/-- No piece of `foo é` is the alias `bar`. -/
example : resolve (fun n => if n = [98, 97, 114] then some [120] else none) true [102, 111, 111, 32, 195, 169] = some none := by
  refine C11_no_alias true ⟨[102, 111, 111, 32, 233], ?_, rfl⟩ (by decide) ?_
  · intro c hc
    simp at hc
    rcases hc with rfl | rfl | rfl | rfl <;> decide
  · intro name hi _
    have : name ≠ [98, 97, 114] := by
      rintro rfl
      have := hi.subset (show 98 ∈ [98, 97, 114] by decide)
      revert this
      decide
    simp only [this, if_false]

theorem exTail : Wf [102, 111, 111, 32, 49, 32, 50] :=
  ⟨[102, 111, 111, 32, 49, 32, 50], by intro c hc; simp at hc; rcases hc with rfl | rfl | rfl | rfl | rfl | rfl <;> decide, rfl⟩

/-- `x y|foo 1 2` -/
example : resolve exTable true (flat [120, 32, 121] ++ ([124] ++ ([] ++ [102, 111, 111, 32, 49, 32, 50]))) =
    (resolve exTable true [102, 111, 111, 32, 49, 32, 50]).map fun r => r.map fun t => flat [120, 32, 121] ++ [124] ++ [] ++ t :=
  C11_next_command (name := [120]) (args := [32, 121]) (sep := [124]) (sp := [])
    ⟨by decide, by intro c hc; simp at hc; subst hc; decide, by decide, by decide⟩ (by decide) (by decide)
    (by intro c hc; simp at hc; rcases hc with rfl | rfl <;> decide)
    (.char (by decide) (.char (by decide) (.char (by decide) .nil))) rfl (by decide) (by decide) (.inr ⟨rfl, by decide⟩)
    (by intro c hc; cases hc; decide) exTail (by decide)

/-- `foo 1& foo 1 2` -/
example : resolve exTable true (flat ([102, 111, 111] ++ [32, 49]) ++ ([38] ++ ([32] ++ [102, 111, 111, 32, 49, 32, 50]))) =
    (resolve exTable true [102, 111, 111, 32, 49, 32, 50]).map fun r =>
      some ([98, 97, 114, 32, 32, 49, 62, 49] ++ [38] ++ [32] ++ r.getD [102, 111, 111, 32, 49, 32, 50]) := by
  have hb : Body [.lit 98, .lit 97, .lit 114, .lit 32, .arg 1, .lit 32, .arg 0, .gt, .all] [98, 97, 114, 32, 36, 50, 32, 36, 49, 36, 103, 36, 42] :=
    .cons (.lit 98 (by decide)) (.cons (.lit 97 (by decide)) (.cons (.lit 114 (by decide)) (.cons (.lit 32 (by decide)) (.cons (.arg 1 (by decide))
      (.cons (.lit 32 (by decide)) (.cons (.arg 0 (by decide)) (.cons (.gt 103 (by decide)) (.cons .all .nil))))))))
  have hw : Words true [32, 49] [[49]] := by
    have := Words.cons (q := true) 1 (w := [49]) (rest := []) (ws := []) (by simp) (by simp [noSpace]) (.inl rfl) (Words.nil 0)
    simpa using this
  exact C12_call_then (name := [102, 111, 111]) (args := [32, 49]) (sep := [38]) (sp := [32]) (ws := [[49]])
    ⟨by decide, by intro c hc; simp at hc; rcases hc with rfl | rfl <;> decide, by decide, by decide⟩
    (bcs := [98, 97, 114, 32, 36, 50, 32, 36, 49, 36, 103, 36, 42])
    (by intro c hc; simp at hc; rcases hc with rfl | rfl | rfl | rfl | rfl | rfl | rfl | rfl | rfl | rfl | rfl | rfl | rfl <;> decide) rfl (by decide) hb
    (by intro c hc; simp at hc; rcases hc with rfl | rfl <;> decide) (.char (by decide) (.char (by decide) .nil)) rfl hw
    (by intro w hw; simp at hw; subst hw; decide) (by decide) (by decide) (.inl rfl) (by intro c hc; cases hc; decide) exTail (by decide)

/-- `foo "a b" c`, and its words. -/
example : Words true [32, 34, 97, 32, 98, 34, 32, 99] [[34, 97, 32, 98, 34], [99]] := by
  have h2 : Words true [32, 99] [[99]] := by
    have := Words.cons (q := true) 1 (w := [99]) (rest := []) (ws := []) (by simp) (by simp [noSpace]) (.inl rfl) (Words.nil 0)
    simpa using this
  have := Words.cons (q := true) 1 (w := [34, 97, 32, 98, 34]) (rest := [32, 99]) (by simp) (by simp [noSpace]) (.inr ⟨by decide, rfl⟩) h2
  simpa using this

example : Name [102, 111, 111] := ⟨by decide, by intro c hc; simp at hc; rcases hc with rfl | rfl <;> decide, by decide, by decide⟩

/-- `foo "a b" c` gives `bar c "a b">"a b" c`. -/
example : resolve exTable true [102, 111, 111, 32, 34, 97, 32, 98, 34, 32, 99] =
    some (some [98, 97, 114, 32, 99, 32, 34, 97, 32, 98, 34, 62, 34, 97, 32, 98, 34, 32, 99]) := by decide +kernel

/-- `x y|foo 1 2` gives `x y|bar 2 1>1 2`. -/
example : resolve exTable true [120, 32, 121, 124, 102, 111, 111, 32, 49, 32, 50] =
    some (some [120, 32, 121, 124, 98, 97, 114, 32, 50, 32, 49, 62, 49, 32, 50]) := by decide +kernel

/-- `foo 1& foo` gives `bar  1>1& bar  >`. -/
example : resolve exTable true [102, 111, 111, 32, 49, 38, 32, 102, 111, 111] =
    some (some [98, 97, 114, 32, 32, 49, 62, 49, 38, 32, 98, 97, 114, 32, 32, 62]) := by decide +kernel

/-- Without the enhancements quotes do not matter and separators belong to the arguments. -/
example : resolve exTable false [102, 111, 111, 32, 34, 97, 32, 98, 34, 124, 99] =
    some (some [98, 97, 114, 32, 98, 34, 124, 99, 32, 34, 97, 62, 34, 97, 32, 98, 34, 124, 99]) := by decide +kernel

example : Wf [102, 111, 111, 32, 195, 169] := ⟨[102, 111, 111, 32, 233], by intro c hc; simp at hc; rcases hc with rfl | rfl | rfl | rfl <;> decide, rfl⟩

/-- `foo 1^&2 ">|" 2>&1`: no separator ends the command. -/
example : Cmd [32, 49, 94, 38, 50, 32, 34, 62, 124, 34, 32, 50, 62, 38, 49] :=
  .char (by decide) <| .char (by decide) <| .caret <| .char (by decide) <| .char (by decide) <|
  .quoted (x := [62, 124]) (by decide) <| .char (by decide) <| .char (by decide) <| .dup <| .char (by decide) .nil

/-! The code does not do what one expects for: -/

/-- C11.  `(foo)` where `foo=bar`: the result is `(bar`, the closing parenthesis is lost. -/
theorem C11_paren_lost : ∃ lookup : Lookup, resolve lookup true [40, 102, 111, 111, 41] = some (some [40, 98, 97, 114]) :=
  ⟨fun n => if n = [102, 111, 111] then some [98, 97, 114] else none, by decide +kernel⟩

/-- C11.  Malformed text (an overlong `|`): the loop does not end, whatever the aliases are. -/
theorem C11_overlong_hangs : resolve (fun _ => none) true [193, 188] = none := by decide +kernel

/-- C12.  An argument of 32768 bytes: the length turns negative when it is stored as a `short`. -/
theorem C12_long_argument (args : List (List Nat × List Nat)) (w s : List Nat) (h : args[0]? = some (w, s)) (hl : w.length = 32768) (star : List Nat) :
    expand args star [36, 49] = none := by
  simp [expand, argText, h, shortLen, hl]

end Clink.Doskey
