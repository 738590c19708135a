import Verif.Proof.SettingsFile

/-! What is read from any file. -/

namespace Clink.Settings

open Spec
open Color (bs)

theorem specUtf8_ascii {b c : Nat} (h : b ∈ Utf.specUtf8 c) (hb : b < 128) : Utf.specUtf8 c = [b] := by
  unfold Utf.specUtf8 at *
  split at h
  · rw [List.mem_singleton] at h
    rw [h, if_pos (by omega)]
  · split at h
    · simp at h; omega
    · split at h
      · simp at h; omega
      · simp at h; omega

theorem utf8_split {a b : List Nat} {c : Nat} (h : Utf8 (a ++ c :: b)) (hc : c < 128) : Utf8 a ∧ Utf8 b := by
  generalize hl : a ++ c :: b = l at h
  induction h generalizing a with
  | nil => simp at hl
  | @cons x t hx h ih =>
    rcases List.append_eq_append_iff.1 hl with ⟨z, h1, h2⟩ | ⟨a', h1, h2⟩
    · cases z with
      | nil =>
        rw [List.append_nil] at h1
        rw [List.nil_append] at h2
        have := ih (a := []) (by rw [List.nil_append]; exact h2)
        refine ⟨?_, this.2⟩
        rw [← h1]
        simpa using Utf8.cons hx .nil
      | cons y z =>
        rw [List.cons_append, List.cons.injEq] at h2
        obtain ⟨rfl, rfl⟩ := h2
        have e := specUtf8_ascii (b := c) (c := x) (by rw [h1]; simp) hc
        rw [h1] at e
        cases a with
        | nil =>
          cases z with
          | nil => exact ⟨.nil, h⟩
          | cons _ _ => simp at e
        | cons _ a => simp at e
    · subst h1
      obtain ⟨g1, g2⟩ := ih (a := a') h2.symm
      exact ⟨.cons hx g1, g2⟩

theorem stop_utf8 {l : List Nat} (h : Utf8 l) :
    ∃ w, l = w ++ Tok.stop Utf.iter8 [10, 13] l ∧ LineOk w ∧ Utf8 (Tok.stop Utf.iter8 [10, 13] l) := by
  induction h with
  | nil =>
    refine ⟨[], ?_, ⟨.nil, by simp, by simp⟩, ?_⟩ <;> rw [Tok.stop, Tok.peek_nil, dif_pos rfl]
    · rfl
    · exact .nil
  | @cons c l hc h ih =>
    have e := Utf.next8_spec c hc.1 hc.2.1 l
    have e1 : Utf.iter8.peek (Utf.specUtf8 c ++ l) = c := congrArg Prod.fst e
    have e2 : Utf.iter8.adv (Utf.specUtf8 c ++ l) = l := congrArg Prod.snd e
    rw [Tok.stop, e1, e2, dif_neg (by have := hc.1; omega)]
    by_cases hm : c ∈ [10, 13]
    · rw [if_pos hm]
      exact ⟨[], rfl, ⟨.nil, by simp, by simp⟩, .cons hc h⟩
    · rw [if_neg hm]
      obtain ⟨w, h1, h2, h3⟩ := ih
      refine ⟨Utf.specUtf8 c ++ w, by rw [List.append_assoc, ← h1], lineOk_append ⟨?_, ?_, ?_⟩ h2, h3⟩
      · simpa using Utf8.cons hc .nil
      · intro h10
        have := specUtf8_ascii h10 (by decide)
        rw [this] at e
        have := Tok.peek_ascii (c := 10) (l := l) (by decide)
        rw [show [10] ++ l = 10 :: l from rfl] at e
        have e' : Utf.iter8.peek (10 :: l) = c := congrArg Prod.fst e
        exact hm (by rw [← e', this]; decide)
      · intro h13
        have := specUtf8_ascii h13 (by decide)
        rw [this] at e
        have := Tok.peek_ascii (c := 13) (l := l) (by decide)
        rw [show [13] ++ l = 13 :: l from rfl] at e
        have e' : Utf.iter8.peek (13 :: l) = c := congrArg Prod.fst e
        exact hm (by rw [← e', this]; decide)

theorem skip_utf8 {l : List Nat} (h : Utf8 l) : Utf8 (Tok.skip Utf.iter8 [10, 13] l) := by
  induction h with
  | nil => rw [Tok.skip, Tok.peek_nil, dif_pos rfl]; exact .nil
  | @cons c l hc h ih =>
    have e := Utf.next8_spec c hc.1 hc.2.1 l
    have e1 : Utf.iter8.peek (Utf.specUtf8 c ++ l) = c := congrArg Prod.fst e
    have e2 : Utf.iter8.adv (Utf.specUtf8 c ++ l) = l := congrArg Prod.snd e
    rw [Tok.skip, e1, e2, dif_neg (by have := hc.1; omega)]
    split
    · exact ih
    · exact .cons hc h

/-- Lines of a file. -/
theorem tokens_utf8 {l : List Nat} (h : Utf8 l) : ∀ w ∈ Tok.tokens Utf.iter8 [10, 13] l, LineOk w := by
  obtain ⟨n, hn⟩ : ∃ n, n = l.length := ⟨_, rfl⟩
  induction n using Nat.strongRecOn generalizing l with
  | _ n ih =>
    intro w hw
    rw [Tok.tokens_eq] at hw
    cases hx : Tok.next Utf.iter8 [10, 13] l with
    | none => rw [hx] at hw; cases hw
    | some r =>
      rw [hx] at hw
      have hlt := Tok.next_lt hx
      unfold Tok.next at hx
      simp only at hx
      split at hx
      · cases hx
      · cases hx
        obtain ⟨w', h1, h2, h3⟩ := stop_utf8 (skip_utf8 h)
        rcases List.mem_cons.1 hw with rfl | hw
        · have : (Tok.skip Utf.iter8 [10, 13] l).take ((Tok.skip Utf.iter8 [10, 13] l).length - (Tok.stop Utf.iter8 [10, 13] (Tok.skip Utf.iter8 [10, 13] l)).length) = w' := by
            generalize Tok.stop Utf.iter8 [10, 13] (Tok.skip Utf.iter8 [10, 13] l) = e at *
            rw [h1]
            simp
          simp only [this]
          exact h2
        · exact ih _ (by rw [hn]; exact hlt) h3 rfl w hw

/-! ### Lines -/

theorem lineOk_split {a b : List Nat} {c : Nat} (h : LineOk (a ++ c :: b)) (hc : c < 128) : LineOk a ∧ LineOk b := by
  obtain ⟨h1, h2⟩ := utf8_split h.utf8 hc
  have h3 := h.nl
  have h4 := h.cr
  simp only [List.mem_append, List.mem_cons, not_or] at h3 h4
  exact ⟨⟨h1, h3.1, h4.1⟩, ⟨h2, h3.2.2, h4.2.2⟩⟩

theorem isSpace_lt {c : Nat} (h : isSpace c = true) : c < 128 := by
  rw [isSpace_iff] at h
  unfold Space at h
  omega

theorem lead_ok {l : List Nat} (h : LineOk l) : ValueOk (l.dropWhile isSpace) := by
  induction l with
  | nil => exact ⟨h, by simp⟩
  | cons c l ih =>
    by_cases hc : isSpace c = true
    · rw [List.dropWhile_cons_of_pos hc]
      exact ih (lineOk_split (a := []) h (isSpace_lt hc)).2
    · rw [List.dropWhile_cons_of_neg hc]
      refine ⟨h, fun d hd => ?_⟩
      cases hd
      rwa [← isSpace_iff]

theorem trail_ok {l : List Nat} (h : LineOk l) :
    LineOk (l.reverse.dropWhile isSpace).reverse ∧ (∀ c, ((l.reverse.dropWhile isSpace).reverse).getLast? = some c → ¬ Space c) ∧
      (l.reverse.dropWhile isSpace).reverse <+: l := by
  have hd : ∀ r : List Nat, ∀ c, (r.dropWhile isSpace).head? = some c → ¬ Space c := by
    intro r
    induction r with
    | nil => simp
    | cons x r ih =>
      intro c hc
      by_cases hx : isSpace x = true
      · rw [List.dropWhile_cons_of_pos hx] at hc
        exact ih c hc
      · rw [List.dropWhile_cons_of_neg hx] at hc
        cases hc
        rwa [← isSpace_iff]
  have hsp : ∀ r : List Nat, ∃ s, r = s ++ r.dropWhile isSpace ∧ ∀ c ∈ s, isSpace c = true := by
    intro r
    induction r with
    | nil => exact ⟨[], rfl, by simp⟩
    | cons x r ih =>
      by_cases hx : isSpace x = true
      · obtain ⟨s, h1, h2⟩ := ih
        refine ⟨x :: s, ?_, by simpa using ⟨hx, h2⟩⟩
        rw [List.dropWhile_cons_of_pos hx, List.cons_append, ← h1]
      · exact ⟨[], by rw [List.dropWhile_cons_of_neg hx]; rfl, by simp⟩
  obtain ⟨s, h1, h2⟩ := hsp l.reverse
  have he : l = (l.reverse.dropWhile isSpace).reverse ++ s.reverse := by
    rw [← List.reverse_append, ← h1, List.reverse_reverse]
  refine ⟨?_, by simpa using hd l.reverse, ⟨s.reverse, he.symm⟩⟩
  cases hs : s.reverse with
  | nil =>
    rw [hs, List.append_nil] at he
    rw [← he]
    exact h
  | cons c t =>
    rw [he, hs] at h
    exact (lineOk_split h (isSpace_lt (h2 c (by rw [← List.mem_reverse, hs]; simp)))).1

structure EntryOk (e : Entry) : Prop where
  name : NameOk e.name
  value : ValueOk e.value
  comment : CommentOk e.comment
  auto : Color.Spec.Like e.name (bs "clink.autoupdate") → ¬ OldWord e.value

theorem autoupdate_ok {n v : List Nat} (h : ValueOk v) :
    ValueOk (autoupdate n v) ∧ (Color.Spec.Like n (bs "clink.autoupdate") → ¬ OldWord (autoupdate n v)) := by
  unfold autoupdate
  by_cases hn : same n (bs "clink.autoupdate") = true
  · rw [if_pos hn]
    simp only
    have hd : ∀ x ∈ [bs "0", bs "1"], ¬ OldWord x := by
      intro x hx
      rw [mem_trim_old]
      have : ∀ x ∈ [bs "0", bs "1"], ¬ ∃ y ∈ [bs "false", bs "off", bs "no", bs "true", bs "on", bs "yes"], same (trim x) y = true := by decide +kernel
      exact this x hx
    split
    · exact ⟨plain_value (by decide), fun _ => hd _ (by simp)⟩
    · split
      · exact ⟨plain_value (by decide), fun _ => hd _ (by simp)⟩
      · rename_i h1 h2
        refine ⟨h, fun _ => ?_⟩
        rw [mem_trim_old]
        simp only [Bool.or_eq_true, not_or] at h1 h2
        simp only [List.mem_cons, List.not_mem_nil, or_false, exists_eq_or_imp, exists_eq_left, not_or]
        exact ⟨h1.1.1, h1.1.2, h1.2, h2.1.1, h2.1.2, h2.2⟩
  · rw [if_neg hn]
    refine ⟨h, fun hl => absurd ((like_same (by decide)).1 hl) hn⟩

theorem commentOk_snoc {c l : List Nat} (h : CommentOk c) (hl : LineOk l) (hh : l.head? = some 35) : CommentOk (c ++ l ++ [10]) := by
  induction h with
  | nil => simpa using CommentOk.cons hl hh .nil
  | @cons x t hx hxh ht ih =>
    have := CommentOk.cons hx hxh ih
    simpa using this

/-- Name and value of a line. -/
theorem splitLine_ok {maybe : Bool} {d n v : List Nat} (hd : ValueOk d) (hh : d.head? ≠ some 35) (h : splitLine maybe d = some (n, v)) :
    NameOk n ∧ ValueOk v := by
  have cut : ∀ c, c < 128 → c ∈ d → (61 ∈ d → c = 61) →
      NameOk ((d.takeWhile (· != c)).reverse.dropWhile isSpace).reverse ∧ ValueOk (((d.dropWhile (· != c)).drop 1).dropWhile isSpace) := by
    intro c hc hm h61
    obtain ⟨a, b, rfl, ha⟩ := List.eq_append_cons_of_mem hm
    obtain ⟨t1, t2⟩ := takeWhile_stop a b c ha
    rw [t1, t2, List.drop_one, List.tail_cons]
    obtain ⟨l1, l2⟩ := lineOk_split hd.toLineOk hc
    obtain ⟨g1, g2, g3⟩ := trail_ok l1
    refine ⟨⟨⟨g1, ?_⟩, g2, ?_, ?_⟩, lead_ok l2⟩
    · intro x hx
      apply hd.lead
      obtain ⟨t, ht⟩ := g3
      rw [← ht]
      cases hr : (a.reverse.dropWhile isSpace).reverse with
      | nil => rw [hr] at hx; cases hx
      | cons y r => rw [hr] at hx; exact hx
    · intro hx
      have : 61 ∈ a := g3.subset hx
      have := h61 (by simp [this])
      subst this
      exact ha (g3.subset hx)
    · intro hx
      apply hh
      obtain ⟨t, ht⟩ := g3
      rw [← ht]
      cases hr : (a.reverse.dropWhile isSpace).reverse with
      | nil => rw [hr] at hx; cases hx
      | cons y r => rw [hr] at hx; exact hx
  unfold splitLine at h
  simp only at h
  split at h
  · rename_i hm
    cases h
    exact cut 61 (by decide) (by simpa using hm) (fun _ => rfl)
  · rename_i hm
    split at h
    · rename_i hs
      cases h
      rw [Bool.and_eq_true] at hs
      exact cut 32 (by decide) (by simpa using hs.2) (fun h => absurd (by simpa using h) hm)
    · cases h

theorem loadLines_ok (maybe was : Bool) {c : List Nat} {ls : List (List Nat)} (hc : CommentOk c) (h : ∀ l ∈ ls, LineOk l) :
    ∀ e ∈ loadLines maybe was c ls, EntryOk e := by
  induction ls generalizing was c with
  | nil => intro e he; cases he
  | cons l ls ih =>
    have hl := lead_ok (h l (by simp))
    have hls : ∀ l ∈ ls, LineOk l := fun x hx => h x (List.mem_cons_of_mem _ hx)
    have hc' : CommentOk (if was then c else []) := by
      split
      · exact hc
      · exact .nil
    intro e he
    simp only [loadLines] at he
    split at he
    · rename_i hh
      exact ih _ (commentOk_snoc hc' hl.toLineOk hh) hls e he
    · rename_i hh
      split at he
      · exact ih _ hc' hls e he
      · rename_i n v hnv
        obtain ⟨h1, h2⟩ := splitLine_ok hl hh hnv
        rcases List.mem_cons.1 he with rfl | he
        · exact ⟨h1, (autoupdate_ok h2).1, hc', (autoupdate_ok h2).2⟩
        · exact ih _ hc' hls e he

theorem loadInternal_ok {text : List Nat} (h : Utf8 text) : ∀ e ∈ loadInternal text, EntryOk e :=
  loadLines_ok _ _ .nil (tokens_utf8 h)

/-! ### Values -/

theorem parse_ok {env : Env} (ok : AtoiOk env.atoi) {ty : Ty} (he : EnumOk env.lower ty) (hc : ∀ d, ty ≠ .color d) {value : List Nat} {v : Val}
    (hv : ValueOk value) (h : parse env ty value = some v) : ValOk env.lower ty v := by
  cases ty with
  | bool d =>
    simp only [parse, parseBool] at h
    split at h; (cases h; exact .yes)
    split at h; (cases h; exact .no)
    split at h; (cases h; exact .yes)
    split at h; (cases h; exact .no)
    split at h; (cases h; exact .yes)
    split at h; (cases h; exact .no)
    split at h
    · cases h
      split
      · exact .no
      · exact .yes
    · cases h
  | int d =>
    simp only [parse, parseInt] at h
    split at h
    · cases h
    · cases h
      exact .int (ok.range _)
  | str d =>
    cases h
    exact .str hv
  | enum o d =>
    obtain ⟨names, h1, h2, h3⟩ := he o d rfl
    obtain ⟨k, rfl, ⟨w, hw, -⟩, -⟩ := (C24_selects ok h1 h2.count v).1 h
    exact .enum h1 h2 h3 (List.getElem?_eq_some_iff.1 hw).1
  | color d => exact absurd rfl (hc d)

/-! ### The state -/

theorem before_total {a b : List Nat} (h : ¬ Before a b) (hne : a ≠ b) : Before b a := by
  induction a generalizing b with
  | nil =>
    cases b with
    | nil => exact absurd rfl hne
    | cons y b => exact absurd .nil h
  | cons x a ih =>
    cases b with
    | nil => exact .nil
    | cons y b =>
      rcases Nat.lt_trichotomy x y with hlt | rfl | hgt
      · exact absurd (.lt hlt) h
      · exact .eq (ih (fun h' => h (.eq h')) (fun e => hne (by rw [e])))
      · exact .lt hgt

theorem before_trans {a b c : List Nat} (h : Before a b) (h' : Before b c) : Before a c := by
  induction h generalizing c with
  | nil => cases h' <;> exact .nil
  | lt h =>
    cases h' with
    | lt h' => exact .lt (by omega)
    | eq h' => exact .lt h
  | eq h ih =>
    cases h' with
    | lt h' => exact .lt h'
    | eq h' => exact .eq (ih h')

theorem emplace_mem {e f : Loaded} {l : List Loaded} (h : f ∈ emplace e l) : f = e ∨ f ∈ l := by
  induction l with
  | nil => exact .inl (by simpa [emplace] using h)
  | cons g l ih =>
    rw [emplace] at h
    split at h
    · simpa using h
    · split at h
      · exact .inr h
      · rcases List.mem_cons.1 h with rfl | h
        · exact .inr (by simp)
        · rcases ih h with h | h
          · exact .inl h
          · exact .inr (List.mem_cons_of_mem _ h)

theorem emplace_sorted {e : Loaded} {l : List Loaded} (h : l.Pairwise fun a b => Before a.name b.name) :
    (emplace e l).Pairwise fun a b => Before a.name b.name := by
  induction l with
  | nil => simp [emplace]
  | cons g l ih =>
    obtain ⟨h1, h2⟩ := List.pairwise_cons.1 h
    rw [emplace]
    split
    · rename_i hb
      rw [before_iff] at hb
      refine List.pairwise_cons.2 ⟨fun x hx => ?_, h⟩
      rcases List.mem_cons.1 hx with rfl | hx
      · exact hb
      · exact before_trans hb (h1 x hx)
    · rename_i hb
      rw [before_iff] at hb
      split
      · exact h
      · rename_i hne
        refine List.pairwise_cons.2 ⟨fun x hx => ?_, ih h2⟩
        rcases emplace_mem hx with rfl | hx
        · exact before_total hb hne
        · exact h1 x hx

/-- A state while a file is read. -/
structure Inv (env : Env) (custom : Custom) (st : State) : Prop where
  known : KnownOk env.lower st.known
  saved : ∀ s ∈ st.known, s.save = true → (∀ d, s.ty ≠ .color d) → ValOk env.lower s.ty s.val
  unsaved : ∀ s ∈ st.known, s.save = false → s.reset env custom = s
  extra : ∀ l ∈ st.loaded, l.saved = false ∧ ExtraOk st.known l
  sorted : st.loaded.Pairwise fun a b => Before a.name b.name

theorem findIdx_none {known : List Setting} {n : List Nat} (h : findIdx known n = none) : Unknown known n := by
  unfold findIdx at h
  split at h
  · cases h
  · rename_i hn
    rw [List.findIdx?_eq_none_iff] at hn
    intro s hs
    refine ⟨fun hx => ?_, fun hl hx => ?_⟩
    · have := hn s hs
      rw [sameName_iff.1 hx] at this
      cases this
    · rw [if_pos hl, List.findIdx?_eq_none_iff] at h
      have := h s hs
      rw [sameName_iff.1 hx] at this
      cases this

/-- Other values for the same settings. -/
theorem known_set {lower : Nat → Nat} {known : List Setting} (h : KnownOk lower known) {i : Nat} {s t : Setting} (hs : known[i]? = some s)
    (ht : (t.name, t.desc, t.ty) = (s.name, s.desc, s.ty)) : KnownOk lower (known.set i t) ∧ (known.set i t).map (·.name) = known.map (·.name) := by
  rw [Prod.mk.injEq, Prod.mk.injEq] at ht
  obtain ⟨t1, t2, t3⟩ := ht
  have hm : s ∈ known := List.mem_of_getElem? hs
  have hd := h.decl s hm
  have hmap : (known.set i t).map (·.name) = known.map (·.name) := by
    apply List.ext_getElem?
    intro j
    rw [List.getElem?_map, List.getElem?_map, List.getElem?_set]
    split
    · rename_i hij
      subst hij
      split
      · rw [hs, Option.map_some, Option.map_some, t1]
      · rename_i hlt
        rw [List.getElem?_eq_none (by omega)]
    · rfl
  refine ⟨⟨?_, ?_, ?_⟩, hmap⟩
  · intro x hx
    rcases List.mem_or_eq_of_mem_set hx with hx | rfl
    · exact h.decl x hx
    · exact ⟨t1 ▸ hd.name, t1 ▸ hd.short, t2 ▸ hd.desc, fun d hd' => hd.color d (t3 ▸ hd'), fun hl => by rw [t3]; exact hd.auto (t1 ▸ hl)⟩
  · intro x hx
    rcases List.mem_or_eq_of_mem_set hx with hx | rfl
    · exact h.enum x hx
    · rw [t3]; exact h.enum s hm
  · have := h.differ
    rw [← List.pairwise_map (f := fun s : Setting => s.name) (R := fun a b => ¬ SameName a b)] at this ⊢
    rw [hmap]
    exact this

theorem extra_names {a b : List Setting} (h : a.map (·.name) = b.map (·.name)) {l : Loaded} (hl : ExtraOk a l) : ExtraOk b l := by
  refine ⟨fun s hs => ?_, hl.name, hl.value, hl.comment, hl.auto⟩
  have : s.name ∈ a.map (·.name) := by rw [h]; exact List.mem_map_of_mem hs
  obtain ⟨s', hs', he⟩ := List.mem_map.1 this
  rw [← he]
  exact hl.unknown s' hs'

theorem addEntry_inv {env : Env} (ok : AtoiOk env.atoi) {custom : Custom} {st : State} (h : Inv env custom st) {e : Entry} (he : EntryOk e) :
    Inv env custom (addEntry env st e) ∧ SameDecl (addEntry env st e).known st.known := by
  unfold addEntry setSetting
  cases hi : findIdx st.known e.name with
  | none =>
    refine ⟨⟨h.known, h.saved, h.unsaved, ?_, emplace_sorted h.sorted⟩, rfl⟩
    intro l hl
    rcases emplace_mem hl with rfl | hl
    · exact ⟨rfl, findIdx_none hi, he.name, he.value, he.comment, he.auto⟩
    · exact h.extra l hl
  | some i =>
    simp only
    cases hs : st.known[i]? with
    | none => exact ⟨h, rfl⟩
    | some s =>
      simp only
      have hdecl : (((s.set env e.value).1).name, ((s.set env e.value).1).desc, ((s.set env e.value).1).ty) = (s.name, s.desc, s.ty) := by
        unfold Setting.set
        split <;> rfl
      obtain ⟨k1, k2⟩ := known_set h.known hs hdecl
      have hm : s ∈ st.known := List.mem_of_getElem? hs
      refine ⟨⟨k1, ?_, ?_, fun l hl => ⟨(h.extra l hl).1, extra_names k2.symm (h.extra l hl).2⟩, h.sorted⟩, ?_⟩
      · intro x hx hsv hc
        rcases List.mem_or_eq_of_mem_set hx with hx | rfl
        · exact h.saved x hx hsv hc
        · revert hsv hc
          unfold Setting.set
          split
          · intro hsv hc
            exact h.saved s hm hsv hc
          · rename_i v hp
            intro _ hc
            exact parse_ok ok (h.known.enum s hm) hc he.value hp
      · intro x hx hsv
        rcases List.mem_or_eq_of_mem_set hx with hx | rfl
        · exact h.unsaved x hx hsv
        · revert hsv
          unfold Setting.set
          split
          · intro hsv
            exact h.unsaved s hm hsv
          · intro hsv
            cases hsv
      · unfold SameDecl
        apply List.ext_getElem?
        intro j
        rw [List.getElem?_map, List.getElem?_map, List.getElem?_set]
        split
        · rename_i hij
          subst hij
          split
          · rw [hs, Option.map_some, Option.map_some, hdecl]
          · rename_i hlt
            rw [List.getElem?_eq_none (by omega)]
        · rfl

theorem reset_facts {env : Env} (ok : AtoiOk env.atoi) {custom : Custom} (hcu : CustomOk custom) {s : Setting} (hd : DeclOk s) (he : EnumOk env.lower s.ty) :
    (s.reset env custom).reset env custom = s.reset env custom ∧
      ((s.reset env custom).save = true → (∀ d, s.ty ≠ .color d) → ValOk env.lower s.ty (s.reset env custom).val) := by
  refine ⟨reset_decl rfl hd, fun hs hc => ?_⟩
  have hv : (s.reset env custom).val = resetVal env custom s := rfl
  have hs' : isDefault env s.ty (resetVal env custom s) = false := by
    have : (!isDefault env s.ty (resetVal env custom s)) = true := hs
    simpa using this
  rw [hv]
  cases hb : (custom s.name).bind (parse env s.ty) with
  | some v =>
    obtain ⟨t, h1, h2⟩ := Option.bind_eq_some_iff.1 hb
    have : resetVal env custom s = v := by unfold resetVal; rw [hb]
    rw [this]
    exact parse_ok ok he hc (hcu _ _ h1) h2
  | none =>
    exfalso
    have hdef : ∀ ty, (∀ d, ty ≠ Ty.color d) → s.ty = ty → resetVal env custom s = ty.default → False := by
      intro ty hty h1 h2
      rw [h1, h2] at hs'
      unfold isDefault at hs'
      cases ty with
      | color d => exact hty d rfl
      | bool d => simp at hs'
      | int d => simp at hs'
      | str d => simp at hs'
      | enum o d => simp at hs'
    refine hdef s.ty hc rfl ?_
    unfold resetVal
    rw [hb]
    simp only

theorem load_inv {env : Env} (ok : AtoiOk env.atoi) {custom : Custom} (hcu : CustomOk custom) {st : State} (hk : KnownOk env.lower st.known) {file : List Nat}
    (hf : Utf8 file) : Inv env custom (load env custom st (some file)) ∧ SameDecl (load env custom st (some file)).known st.known := by
  have hdecl : SameDecl (st.known.map (·.reset env custom)) st.known := by
    unfold SameDecl
    rw [List.map_map]
    rfl
  have h0 : Inv env custom ⟨st.known.map (·.reset env custom), []⟩ := by
    refine ⟨⟨?_, ?_, ?_⟩, ?_, ?_, by simp, .nil⟩
    · intro s hs
      obtain ⟨t, ht, rfl⟩ := List.mem_map.1 hs
      have := hk.decl t ht
      exact ⟨this.name, this.short, this.desc, this.color, this.auto⟩
    · intro s hs
      obtain ⟨t, ht, rfl⟩ := List.mem_map.1 hs
      exact hk.enum t ht
    · have := hk.differ
      exact List.pairwise_map.2 this
    · intro s hs hsv hc
      obtain ⟨t, ht, rfl⟩ := List.mem_map.1 hs
      exact (reset_facts ok hcu (hk.decl t ht) (hk.enum t ht)).2 hsv hc
    · intro s hs _
      obtain ⟨t, ht, rfl⟩ := List.mem_map.1 hs
      exact (reset_facts ok hcu (hk.decl t ht) (hk.enum t ht)).1
  have key : ∀ (es : List Entry) (st0 : State), (∀ e ∈ es, EntryOk e) → Inv env custom st0 → SameDecl st0.known st.known →
      Inv env custom (es.foldl (addEntry env) st0) ∧ SameDecl (es.foldl (addEntry env) st0).known st.known := by
    intro es
    induction es with
    | nil => intro st0 _ h1 h2; exact ⟨h1, h2⟩
    | cons e es ih =>
      intro st0 he h1 h2
      obtain ⟨g1, g2⟩ := addEntry_inv ok h1 (he e (by simp))
      exact ih _ (fun x hx => he x (List.mem_cons_of_mem _ hx)) g1 (g2.trans h2)
  exact key _ _ (loadInternal_ok hf) h0 hdecl

theorem inv_state {env : Env} {custom : Custom} {st : State} (h : Inv env custom st) (hc : ColoursOk st.known) : StateOk env custom st := by
  refine ⟨h.known.decl, h.known.differ, fun s hs hsv => ?_, h.unsaved, fun l hl => .inr (h.extra l hl), h.sorted⟩
  by_cases hcol : ∃ d, s.ty = .color d
  · obtain ⟨d, hd⟩ := hcol
    obtain ⟨code, h1, h2⟩ := hc s hs d hd hsv
    rw [hd, h1]
    exact .color h2
  · exact h.saved s hs hsv fun d hd => hcol ⟨d, hd⟩

/-- No loaded setting is known. -/
theorem inv_strangers {env : Env} {custom : Custom} {st : State} (h : Inv env custom st) : strangers st = st.loaded := by
  unfold strangers
  rw [List.filter_eq_self]
  intro l hl
  have := (h.extra l hl).2.unknown
  simp only [Bool.not_eq_true', List.any_eq_false, beq_iff_eq]
  intro s hs he
  exact (this s hs).1 (by rw [he]; exact sameName_refl _)

end Clink.Settings
