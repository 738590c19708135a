import Verif.Proof.Doskey

namespace Clink.Doskey

open Utf (more next8 specUtf8 IsText)
open Spec

theorem more_nil : more [] = false := rfl
theorem isText32 : IsText 32 := ⟨by decide, by decide, by decide⟩

theorem skipDelims_flat (n : Nat) {cs : List Nat} (h : ∀ c ∈ cs, IsText c) (hd : cs.head? ≠ some 32) :
    skipDelims (flat (List.replicate n 32 ++ cs)) = flat cs := by
  induction n with
  | zero =>
    cases cs with
    | nil => simp [flat, skipDelims, more]
    | cons c cs =>
      have hc := h c (by simp)
      simp only [List.replicate_zero, List.nil_append, flat_cons]
      rw [skipDelims, dif_pos (more_flat hc _), peek_flat hc, if_neg (by simpa using hd)]
  | succ n ih =>
    rw [List.replicate_succ, List.cons_append, flat_cons, skipDelims, dif_pos (more_flat isText32 _), peek_flat isText32,
      if_pos rfl, next_flat isText32, ih]

theorem tokenEnd_flat (q : Bool) (b : Bool) (w : List Nat) {rest : List Nat} (hbq : b = true → q = true)
    (hw : ∀ c ∈ w, IsText c) (hr : ∀ c ∈ rest, IsText c) (hns : noSpace q b w)
    (hend : rest = [] ∨ inQuotes q b w = false ∧ rest.head? = some 32) :
    tokenEnd q b (flat (w ++ rest)) = flat rest := by
  induction w generalizing b with
  | nil =>
    rcases hend with rfl | ⟨hb, hh⟩
    · simp [flat, tokenEnd, more]
    · cases rest with
      | nil => simp at hh
      | cons c rest =>
        simp at hh; subst hh
        simp [inQuotes] at hb; subst hb
        rw [List.nil_append, flat_cons, tokenEnd, dif_pos (more_flat isText32 _)]
        simp [peek_flat isText32]
  | cons c w ih =>
    have hc := hw c (by simp)
    rw [List.cons_append, flat_cons, tokenEnd, dif_pos (more_flat hc _)]
    simp only [peek_flat hc, next_flat hc]
    rw [if_neg (Nat.pos_iff_ne_zero.1 hc.1)]
    simp only [noSpace] at hns
    simp only [inQuotes] at hend
    have hw' : ∀ d ∈ w, IsText d := fun d hd => hw d (List.mem_cons_of_mem _ hd)
    cases b with
    | true =>
      have hq := hbq rfl
      subst hq
      rw [if_pos rfl]
      have e : (if (true && c == 34) = true then !true else true) = (c != 34) := by
        by_cases h : c = 34 <;> simp [h]
      rw [e] at hns hend
      exact ih _ (fun _ => rfl) hw' hns.2 hend
    | false =>
      rw [if_neg (by simp), if_neg (hns.1 rfl)]
      have e : (if (q && c == 34) = true then !false else false) = (q && c == 34) := by
        cases h : (q && c == 34) <;> simp
      rw [e] at hns hend
      exact ih _ (by simp; intro h _; exact h) hw' hns.2 hend

theorem flat_ne_nil {cs : List Nat} (h : cs ≠ []) : flat cs ≠ [] := by
  cases cs with
  | nil => exact absurd rfl h
  | cons c cs =>
    rw [flat_cons]
    intro hh
    exact Utf.specUtf8_ne_nil c (List.append_eq_nil_iff.1 hh).1

theorem noSpace_head {q : Bool} {w : List Nat} (h : noSpace q false w) : w.head? ≠ some 32 := by
  cases w with
  | nil => simp
  | cons c w => have := h.1 rfl; simpa using this

/-- Text where the words of a splitting begin, with the words. -/
def located : List Nat → List (List Nat) → List (List Nat × List Nat)
  | _, [] => []
  | cs, w :: ws =>
    let s := cs.dropWhile (· == 32)
    (flat w, flat s) :: located (s.drop w.length) ws

theorem dropWhile_replicate (n : Nat) {l : List Nat} (h : l.head? ≠ some 32) :
    (List.replicate n 32 ++ l).dropWhile (· == 32) = l := by
  induction n with
  | zero =>
    cases l with
    | nil => rfl
    | cons c l => simp at h; simp [List.dropWhile_cons, h]
  | succ n ih => rw [List.replicate_succ, List.cons_append, List.dropWhile_cons]; simpa using ih

theorem collect_words {q : Bool} {cs : List Nat} {ws : List (List Nat)} (hw : Words q cs ws) :
    (∀ c ∈ cs, IsText c) → ∀ n, collect q n (flat cs) = (located cs ws).take n := by
  induction hw with
  | nil k =>
    intro h n
    cases n with
    | zero => simp [collect]
    | succ n =>
      have h1 : skipDelims (flat (List.replicate k 32)) = [] := by
        have := skipDelims_flat k (cs := []) (by simp) (by simp)
        simpa [flat] using this
      simp [collect, nextToken, h1, tokenEnd, more, between, located]
  | @cons k w rest ws hne hns hend hws ih =>
    intro h n
    have hwt : ∀ c ∈ w, IsText c := fun c hc => h c (by simp [hc])
    have hrt : ∀ c ∈ rest, IsText c := fun c hc => h c (by simp [hc])
    have hhd : (w ++ rest).head? ≠ some 32 := by
      have := noSpace_head hns
      cases w with
      | nil => exact absurd rfl hne
      | cons c w => simpa using this
    cases n with
    | zero => simp [collect]
    | succ n =>
      have h1 : skipDelims (flat (List.replicate k 32 ++ (w ++ rest))) = flat (w ++ rest) :=
        skipDelims_flat k (by intro c hc; rcases List.mem_append.1 hc with h | h; exact hwt c h; exact hrt c h) hhd
      have h2 := tokenEnd_flat q false w (by simp) hwt hrt hns hend
      have h3 : between (flat (w ++ rest)) (flat rest) = flat w := by simp [between, flat_append]
      rw [collect, nextToken]
      simp only [h1, h2, h3]
      rw [if_neg (flat_ne_nil hne)]
      simp only
      rw [ih hrt n]
      simp only [located, dropWhile_replicate k hhd, List.take_succ_cons, List.drop_left]

theorem located_fst (cs : List Nat) (ws : List (List Nat)) : (located cs ws).map (·.1) = ws.map flat := by
  induction ws generalizing cs with
  | nil => rfl
  | cons w ws ih => simp [located, ih]

/-- The first word starts where the spaces end. -/
theorem located_head {cs : List Nat} {ws : List (List Nat)} :
    (located cs ws).head?.map (·.2) = if ws = [] then none else some (flat (cs.dropWhile (· == 32))) := by
  cases ws <;> simp [located]

theorem words_nil {q : Bool} {cs : List Nat} (h : Words q cs []) : cs.dropWhile (· == 32) = [] := by
  cases h with
  | nil n => simpa using dropWhile_replicate n (l := []) (by simp)

/-- Splits off one word. -/
theorem word_exists (q b : Bool) (cs : List Nat) :
    ∃ w rest, cs = w ++ rest ∧ noSpace q b w ∧ (rest = [] ∨ inQuotes q b w = false ∧ rest.head? = some 32) := by
  induction cs generalizing b with
  | nil => exact ⟨[], [], rfl, trivial, .inl rfl⟩
  | cons c cs ih =>
    by_cases h : b = false ∧ c = 32
    · exact ⟨[], c :: cs, rfl, trivial, .inr ⟨h.1, by simp [h.2]⟩⟩
    · obtain ⟨w, rest, h1, h2, h3⟩ := ih (if q && c == 34 then !b else b)
      refine ⟨c :: w, rest, by simp [h1], ⟨fun hb hc => h ⟨hb, hc⟩, h2⟩, h3⟩

theorem spaces_exist (cs : List Nat) : ∃ n, ∃ l, cs = List.replicate n 32 ++ l ∧ l.head? ≠ some 32 := by
  induction cs with
  | nil => exact ⟨0, [], rfl, by simp⟩
  | cons c cs ih =>
    by_cases h : c = 32
    · obtain ⟨n, l, h1, h2⟩ := ih
      exact ⟨n + 1, l, by rw [List.replicate_succ, h, h1]; rfl, h2⟩
    · exact ⟨0, c :: cs, rfl, by simpa using h⟩

/-- Any text can be split into words. -/
theorem words_exist (q : Bool) (cs : List Nat) : ∃ ws, Words q cs ws := by
  obtain ⟨n, l, hcs, hl⟩ := spaces_exist cs
  by_cases hn : l = []
  · subst hn; exact ⟨[], by simpa [hcs] using Words.nil n⟩
  · obtain ⟨w, rest, h1, h2, h3⟩ := word_exists q false l
    have hw : w ≠ [] := by
      rintro rfl
      rcases h3 with rfl | ⟨-, h3⟩
      · exact hn (by simpa using h1)
      · rw [h1] at hl; exact hl (by simpa using h3)
    have hlen : rest.length < cs.length := by
      rw [hcs, h1]; have := List.length_pos_iff.2 hw; simp; omega
    obtain ⟨ws, hws⟩ := words_exist q rest
    exact ⟨w :: ws, hcs ▸ h1 ▸ Words.cons n hw h2 h3 hws⟩
termination_by cs.length
decreasing_by exact hlen

/-! A command with a name. -/

structure Name (name : List Nat) : Prop where
  ne : name ≠ []
  text : ∀ c ∈ name, IsText c ∧ c ≠ 32 ∧ c ≠ 62
  open_ : name.head? ≠ some 40
  at_ : name.head? ≠ some 64

theorem Name.cases {name : List Nat} (h : Name name) : ∃ c l, name = c :: l ∧ IsText c ∧ c ≠ 32 ∧ c ≠ 62 ∧ c ≠ 40 ∧ c ≠ 64 := by
  cases name with
  | nil => exact absurd rfl h.ne
  | cons c l =>
    have := h.text c (by simp)
    exact ⟨c, l, rfl, this.1, this.2.1, this.2.2, by simpa using h.open_, by simpa using h.at_⟩

theorem skipParens_name (lookup : Lookup) {name : List Nat} (h : Name name) (l : List Nat) :
    skipParens lookup true (flat name ++ l) = (flat name ++ l, 0) := by
  obtain ⟨c, cs, rfl, hc, h32, h62, h40, h64⟩ := h.cases
  unfold skipParens
  split
  · rfl
  · rw [flat_cons, List.append_assoc, parenLoop, dif_pos (more_flat hc _), peek_flat hc, if_neg h40, if_neg (by omega)]

theorem aliasEnd_name (r : Bool) {name : List Nat} (h : ∀ c ∈ name, IsText c ∧ c ≠ 32 ∧ c ≠ 62 ∧ (r = true → c ≠ 124 ∧ c ≠ 38))
    {rest : List Nat} (hr : ∀ c ∈ rest, IsText c) (hs : rest = [] ∨ rest.head? = some 32 ∨ (r = true ∧ (rest.head? = some 124 ∨ rest.head? = some 38))) :
    aliasEnd r (flat name ++ flat rest) = flat rest := by
  induction name with
  | nil =>
    rw [flat_nil, List.nil_append]
    rcases hs with rfl | hs
    · simp [flat, aliasEnd, more]
    · cases rest with
      | nil => simp at hs
      | cons c rest =>
        have hc := hr c (by simp)
        have hc' : c = 32 ∨ (r = true ∧ (c = 124 ∨ c = 38)) := by simpa using hs
        rw [flat_cons, aliasEnd, dif_pos (more_flat hc _), peek_flat hc, if_neg (by omega), if_pos (.inr hc')]
  | cons c name ih =>
    obtain ⟨hc, h32, h62, h3⟩ := h c (by simp)
    rw [flat_cons, List.append_assoc, aliasEnd, dif_pos (more_flat hc _), peek_flat hc, if_neg h62, if_neg, next_flat hc]
    · exact ih fun d hd => h d (List.mem_cons_of_mem _ hd)
    · rintro (h | h | ⟨h, h'⟩)
      · have := hc.1; omega
      · exact h32 h
      · have := h3 h; omega

theorem skipSpaces_eq_skipDelims (l : List Nat) : skipSpaces l = skipDelims l := by
  fun_induction skipSpaces l with
  | case1 l hm hp ih => rw [skipDelims, dif_pos hm, if_pos hp, ih]
  | case2 l hm hp => rw [skipDelims, dif_pos hm, if_neg hp]
  | case3 l hm => rw [skipDelims, dif_neg hm]

theorem skipSpaces_flat {cs : List Nat} (h : ∀ c ∈ cs, IsText c) : skipSpaces (flat cs) = flat (cs.dropWhile (· == 32)) := by
  obtain ⟨n, l, rfl, hl⟩ := spaces_exist cs
  rw [skipSpaces_eq_skipDelims, skipDelims_flat n (fun c hc => h c (by simp [hc])) hl, dropWhile_replicate n hl]

theorem head_ne_space {c : Nat} (hc : IsText c) (h : c ≠ 32) (l : List Nat) : (specUtf8 c ++ l).head? ≠ some 32 := by
  by_cases h128 : c < 128
  · rw [spec_ascii h128]; simpa using h
  · unfold specUtf8
    have := hc.2.1
    rw [if_neg h128]
    split
    · simp; omega
    · split
      · simp; omega
      · simp; omega

/-- What an attempt finds for a command that starts with a name. -/
theorem tryAlias_name (lookup : Lookup) (r : Bool) {name : List Nat} (hn : Name name)
    (h : ∀ c ∈ name, r = true → c ≠ 124 ∧ c ≠ 38) {rest : List Nat} (hr : ∀ c ∈ rest, IsText c)
    (hs : rest = [] ∨ rest.head? = some 32 ∨ (r = true ∧ (rest.head? = some 124 ∨ rest.head? = some 38))) :
    tryAlias lookup r (flat name ++ flat rest) =
      (lookup (flat name)).map fun text => ⟨[], flat name, text, 0, flat (rest.dropWhile (· == 32))⟩ := by
  have he := aliasEnd_name r (fun c hc => ⟨(hn.text c hc).1, (hn.text c hc).2.1, (hn.text c hc).2.2, h c hc⟩) hr hs
  have hsp := skipParens_name lookup hn (flat rest)
  unfold tryAlias
  simp only [hsp, he, trimParens_zero]
  rw [if_neg, show (flat name ++ flat rest).length - (flat rest).length = (flat name).length by simp, List.take_left,
    if_neg (flat_ne_nil hn.ne), skipSpaces_flat hr]
  · simp [between]
  · obtain ⟨c, cs, rfl, hc, h32, -⟩ := hn.cases
    rw [flat_cons, List.append_assoc]
    exact fun hh => head_ne_space hc h32 _ hh.2

theorem findEnd_none (q : Bool) {cs : List Nat} (h : ∀ c ∈ cs, IsText c ∧ c ≠ 124 ∧ c ≠ 38) : findEnd q (flat cs) = [] := by
  have hsuf : ∀ l : List Nat, (∃ ds, l = flat ds ∧ ∀ c ∈ ds, IsText c ∧ c ≠ 124 ∧ c ≠ 38) → ∀ q, findEnd q l = [] := by
    intro l hl q
    have hnx : ∀ l, (∃ ds, l = flat ds ∧ ∀ c ∈ ds, IsText c ∧ c ≠ 124 ∧ c ≠ 38) →
        (∃ ds, next l = flat ds ∧ ∀ c ∈ ds, IsText c ∧ c ≠ 124 ∧ c ≠ 38) := by
      rintro l ⟨ds, rfl, hd⟩
      cases ds with
      | nil => exact ⟨[], rfl, by simp⟩
      | cons c ds => exact ⟨ds, next_flat (hd c (by simp)).1 _, fun x hx => hd x (List.mem_cons_of_mem _ hx)⟩
    fun_induction findEnd q l with
    | case1 q l hm c l1 hc ih => exact ih (hnx _ hl)
    | case2 l hm c l1 hc ih => exact ih (hnx _ hl)
    | case3 q l hm c l1 hc hq hg ih => exact ih (hnx _ (hnx _ hl))
    | case4 q l hm c l1 hc hq hg hg2 ih => exact ih (hnx _ (hnx _ hl))
    | case5 q l hm c l1 hc hq hg hg2 hs =>
      obtain ⟨ds, rfl, hd⟩ := hl
      cases ds with
      | nil => simp [flat, more] at hm
      | cons d ds =>
        have := hd d (by simp)
        simp only [c, flat_cons, peek_flat this.1] at hs
        omega
    | case6 q l hm c l1 hc hq hg hg2 hs ih => exact ih (hnx _ hl)
    | case7 q l hm =>
      obtain ⟨ds, rfl, hd⟩ := hl
      cases ds with
      | nil => rfl
      | cons d ds => rw [flat_cons, more_flat (hd d (by simp)).1] at hm; simp at hm
  exact hsuf _ ⟨cs, rfl, h⟩ q

theorem value_congr {ts : List Tag} {b : List Nat} (h : Body ts b) (args : List (List Nat)) (star : List Nat) :
    ts.flatMap (Tag.value (args.take 10) star) = ts.flatMap (Tag.value args star) := by
  induction h with
  | nil => rfl
  | tail => rfl
  | cons hw hb ih =>
    simp only [List.flatMap_cons, ih]
    congr 1
    cases hw with
    | arg i hi => simp [Tag.value, List.getElem?_take, show i < 10 by omega]
    | _ => rfl

theorem located_prefix {q : Bool} {cs : List Nat} {ws : List (List Nat)} (hw : Words q cs ws) :
    ∀ a ∈ located cs ws, a.1 <+: a.2 := by
  induction hw with
  | nil => simp [located]
  | @cons k w rest ws hne hns hend hws ih =>
    have hhd : (w ++ rest).head? ≠ some 32 := by
      have := noSpace_head hns
      cases w with
      | nil => exact absurd rfl hne
      | cons c w => simpa using this
    intro a ha
    simp only [located, dropWhile_replicate k hhd, List.drop_left, List.mem_cons] at ha
    rcases ha with rfl | ha
    · simp [flat_append]
    · exact ih a ha

theorem located_dropWhile {q : Bool} {cs : List Nat} {ws : List (List Nat)} (hw : Words q cs ws) :
    Words q (cs.dropWhile (· == 32)) ws := by
  cases hw with
  | nil n => simpa [dropWhile_replicate n (l := []) (by simp)] using Words.nil (q := q) 0
  | @cons k w rest ws hne hns hend hws =>
    have hhd : (w ++ rest).head? ≠ some 32 := by
      have := noSpace_head hns
      cases w with
      | nil => exact absurd rfl hne
      | cons c w => simpa using this
    rw [dropWhile_replicate k hhd]
    simpa using Words.cons 0 hne hns hend hws

end Clink.Doskey
