import Verif.Proof.Abbrev
import Verif.Props.StrCompare
/- Helper lemmas for C55: one directory name. -/
namespace Clink.Abbrev
open Spec Clink.Utf
open Clink.StrCompare (isSep)

/-! ## Common prefixes -/

theorem text_u16 {s : List Nat} (h : ∀ c ∈ s, IsText c) : Text iter16 (u16 s) s [] := by
  refine ⟨?_, rfl⟩
  induction s with
  | nil => exact .nil _
  | cons c s ih =>
    have e : u16 (c :: s) = specUtf16 c ++ u16 s := rfl
    refine .cons (l' := u16 s) ?_ ?_ (ih (fun c hc => h c (by simp [hc])))
    · rw [e]; exact next16_spec c (h c (by simp)) _
    · have := (h c (by simp)).1; omega

theorem steps_u16 {l pl suf : List Nat} (hs : Steps iter16 l pl suf) :
    ∀ cs, (∀ c ∈ cs, IsText c) → l = u16 cs → ∃ ql, cs = pl ++ ql ∧ suf = u16 ql := by
  induction hs with
  | nil l => intro cs _ h; exact ⟨cs, by simp, h⟩
  | @cons l l' suf c cs' h hc hs ih =>
    intro cs ht e
    cases cs with
    | nil => subst e; simp [u16, iter16, next16] at h; omega
    | cons x xs =>
      have e1 : u16 (x :: xs) = specUtf16 x ++ u16 xs := rfl
      have h2 := next16_spec x (ht x (by simp)) (u16 xs)
      rw [e, e1] at h
      have h3 : iter16.next (specUtf16 x ++ u16 xs) = (x, u16 xs) := h2
      rw [h3] at h
      injection h with ha hb
      subst ha
      obtain ⟨ql, q1, q2⟩ := ih xs (fun c hc => ht c (by simp [hc])) hb.symm
      exact ⟨ql, by rw [q1]; rfl, q2⟩

theorem truncLcd_u16 (e : Env) {a b : List Nat} (ha : ∀ c ∈ a, IsText c) (hb : ∀ c ∈ b, IsText c) :
    ∃ c, c <+: a ∧ truncLcd e (u16 a) (u16 b) = u16 c ∧
      nameKey e c = StrCompare.lcp (nameKey e a) (nameKey e b) := by
  obtain ⟨pl, ql, pr, qr, h1, h2, h3, h4, h5, h6, h7⟩ := StrCompare.C29_common_prefix e.lower iter16 e.mode
    (u16 a) (u16 b) a b [] [] (text_u16 ha) (text_u16 hb)
  obtain ⟨q, q1, q2⟩ := steps_u16 h4 a ha rfl
  refine ⟨pl, ⟨q, q1.symm⟩, ?_, h6⟩
  have hl : u16 a = u16 pl ++ u16 q := by rw [q1, u16_append]
  unfold truncLcd
  simp only [h3]
  rw [if_pos (by omega), q2, hl]
  simp

theorem loop_self (lower : Nat → Nat) (it : Iter) (m : StrCompare.Mode) (n : Nat) : ∀ l : List Nat, l.length ≤ n →
    (StrCompare.loop lower it m l l).1 = (StrCompare.loop lower it m l l).2 ∧
    it.peek (StrCompare.loop lower it m l l).1 = 0 := by
  induction n with
  | zero =>
    intro l hl
    have : it.peek l = 0 := by
      apply Classical.byContradiction
      intro h; have := it.adv_lt h; omega
    rw [StrCompare.loop, dif_neg (by simp [this])]
    exact ⟨rfl, this⟩
  | succ n ih =>
    intro l hl
    by_cases h : it.peek l = 0
    · rw [StrCompare.loop, dif_neg (by simp [h])]; exact ⟨rfl, h⟩
    · have h1 := it.adv_lt h
      have h2 := StrCompare.skipSep_le it (it.adv l)
      rw [StrCompare.loop, dif_pos ⟨h, h⟩]
      simp only [StrCompare.same, if_true]
      split
      · exact ih _ (by omega)
      · exact ih _ (by omega)

theorem truncLcd_self (e : Env) {a : List Nat} (ha : ∀ c ∈ a, IsText c) : truncLcd e (u16 a) (u16 a) = u16 a := by
  obtain ⟨h1, h2⟩ := loop_self e.lower iter16 e.mode _ (u16 a) (Nat.le_refl _)
  obtain ⟨pl, ql, pr, qr, a1, a2, s1, t1, _⟩ := StrCompare.loop_spec e.lower iter16 e.mode (u16 a) (u16 a) a a [] []
    (text_u16 ha) (text_u16 ha)
  obtain ⟨q1, q2⟩ := t1.nil_inv h2
  unfold truncLcd StrCompare.strCompare
  simp only [Bool.true_or, if_true, ← q2]
  simp

/-! ## Listings -/

/-- How the system shows an entry. -/
def shown (x : List Nat × Bool) : Entry := ⟨u16 x.1, x.2⟩

theorem u16_eq_dot {s : List Nat} (h : Plain s) : u16 s = [46] ↔ s = [46] := by
  constructor
  · intro e
    have hd : ∀ c ∈ ([46] : List Nat), IsText c := by decide
    exact u16_inj h.text hd (by rw [e]; rfl)
  · rintro rfl; rfl

theorem skipDots_map {pat : List Nat} (hp1 : pat ≠ [46]) (hp2 : pat ≠ [46, 46]) (l : List (List Nat × Bool))
    (hn : ∀ x ∈ l, Plain x.1) :
    skipDots pat (l.map shown) = if noDots l = [] then none else some ((noDots l).map shown) := by
  cases l with
  | nil => rfl
  | cons x r =>
    have hx := u16_eq_dot (hn x (by simp))
    obtain ⟨x, b⟩ := x
    by_cases h : x = [46]
    · subst h
      have e : shown ([46], b) = ⟨[46], b⟩ := rfl
      simp only [List.map_cons, skipDots, e, if_true, ne_eq, hp1, hp2, not_false_eq_true, noDots]
      cases r with
      | nil => rfl
      | cons y r => cases r <;> simp
    · have h' : (shown (x, b)).name ≠ [46] := fun hh => h (hx.1 hh)
      have e : noDots ((x, b) :: r) = (x, b) :: r := by
        unfold noDots; split
        · rename_i heq; simp at heq; exact absurd heq.1.1 h
        · rfl
      rw [e]
      simp only [List.map_cons, skipDots, h', if_false]
      simp

theorem nextDir_map (l : List (List Nat × Bool)) :
    nextDir (l.map shown) =
      if l.dropWhile (fun x => !x.2) = [] then none else some ((l.dropWhile (fun x => !x.2)).map shown) := by
  induction l with
  | nil => rfl
  | cons x r ih =>
    obtain ⟨x, b⟩ := x
    cases b with
    | true => simp [nextDir, shown]
    | false => simpa [nextDir, shown] using ih

theorem filter_dropWhile (l : List (List Nat × Bool)) :
    l.filter (·.2) = (l.dropWhile (fun x => !x.2)).filter (·.2) := by
  induction l with
  | nil => rfl
  | cons x r ih =>
    obtain ⟨x, b⟩ := x
    cases b with
    | true => simp
    | false => simpa using ih

theorem dropWhile_head {l r : List (List Nat × Bool)} {x : List Nat × Bool}
    (h : l.dropWhile (fun x => !x.2) = x :: r) : x.2 = true := by
  induction l with
  | nil => simp at h
  | cons y l ih =>
    obtain ⟨y, b⟩ := y
    cases b with
    | true => simp at h; rw [← h.1]
    | false => exact ih (by simpa using h)

theorem firstBest_map {dir : List Nat} (hd : ∀ c ∈ dir, IsText c) (l : List (List Nat × Bool)) (hn : ∀ x ∈ l, Plain x.1) :
    firstBest (u16 dir) (l.map shown) = ((l.map (·.1)).find? (fun n => decide (dir <+: n))).map u16 := by
  induction l with
  | nil => rfl
  | cons x r ih =>
    have hx := u16_prefix hd (hn x (by simp)).text
    have ih := ih (fun x hx => hn x (by simp [hx]))
    simp only [List.map_cons, firstBest, List.find?_cons]
    by_cases h : dir <+: x.1
    · rw [if_pos (by rw [List.isPrefixOf_iff_prefix]; exact hx.2 h)]; simp [h, shown]
    · rw [if_neg (by rw [List.isPrefixOf_iff_prefix]; exact fun hh => h (hx.1 hh))]; simp [h, ih]

/-! ## One name -/

variable {e : Env} {k : Disk}

theorem noDots_sub (l : List (List Nat × Bool)) : ∀ x ∈ noDots l, x ∈ l := by
  intro x hx
  unfold noDots at hx
  split at hx
  · exact List.mem_cons_of_mem _ (List.mem_of_mem_drop hx)
  · exact hx

theorem found_plain (hs : Shows e k) (base : List Nat) (p : Piece) : ∀ x ∈ found k base p, Plain x.1 ∧ x.1 ≠ [] ∧ ∀ c ∈ x.1, ¬ Slash c :=
  fun x hx => hs.names _ x (noDots_sub _ x hx)

theorem star_ne (s : List Nat) : s ++ [42] ≠ [46] ∧ s ++ [42] ≠ [46, 46] := by
  constructor
  · intro h; have := congrArg List.getLast? h; simp at this
  · intro h; have := congrArg List.getLast? h; simp at this

theorem dir_u16 {p : Piece} (hp : p.Ok) : (u16 p.text).dropWhile isSep = u16 p.name := by
  unfold u16
  rw [dropWhile_flat _ _ _ (fun c _ => uni16 c)]
  congr 1
  unfold Piece.text
  refine (takeWhile_seps hp.seps ?_).2
  intro c hc
  cases hn : p.name with
  | nil => exact absurd hn hp.some
  | cons x xs => rw [hn] at hc; simp at hc; subst hc; exact hp.name x (by simp [hn])

/-- The directories, and where the first one is. -/
theorem folders_cons {base : List Nat} {p : Piece} :
    folders k base p = ((((found k base p).dropWhile (fun x => !x.2)).filter (·.2)).map (·.1)) := by
  unfold folders; rw [filter_dropWhile]

theorem component_eq (hs : Shows e k) {base : List Nat} (hb : Plain base) {p : Piece} (hp : p.Ok) :
    (folders k base p = [] → component e (u16 base) (u16 p.text) = none) ∧
    (∀ d, Chosen k base p d → component e (u16 base) (u16 p.text) = some (u16 d, true)) ∧
    (∀ d1 d2, Several k base p d1 d2 → ∃ add, Becomes e k base p d1 d2 add ∧
      component e (u16 base) (u16 p.text) = some (u16 add, false)) := by
  have hpl : Plain (base ++ p.text ++ [42]) := (hb.append hp.plainText).append (by intro c hc; simp at hc; subst hc; exact ⟨by decide, by decide⟩)
  have hpat : u16 base ++ u16 p.text ++ [42] = u16 (base ++ p.text ++ [42]) := by
    rw [u16_append, u16_append]; rfl
  have hfind : e.find (u16 base ++ u16 p.text ++ [42]) = (k.ls (base ++ p.seps ++ p.name ++ [42])).map shown := by
    rw [hpat, hs.find _ hpl]; simp [Piece.text, shown]
  have hne := star_ne (u16 base ++ u16 p.text)
  have hsd := skipDots_map hne.1 hne.2 (k.ls (base ++ p.seps ++ p.name ++ [42])) (fun x hx => (hs.names _ x hx).1)
  have hF : noDots (k.ls (base ++ p.seps ++ p.name ++ [42])) = found k base p := rfl
  rw [hF] at hsd
  have hpn := found_plain hs base p
  have hfo := folders_cons (k := k) (base := base) (p := p)
  have hmodel : ∀ d, model k base p d = if p.name <+: d then some d
    else (((((found k base p).dropWhile (fun x => !x.2)).drop 1).dropWhile (fun x => !x.2)).map (·.1)).find?
      (fun n => decide (p.name <+: n)) := fun d => rfl
  generalize hFe : found k base p = F at *
  cases hD : F.dropWhile (fun x => !x.2) with
  | nil =>
    have hnone : component e (u16 base) (u16 p.text) = none := by
      unfold component
      simp only [hfind, hsd]
      by_cases h0 : F = []
      · rw [if_pos h0]
      · rw [if_neg h0]; simp only [nextDir_map, hD, if_true]
    rw [hD] at hfo
    refine ⟨fun _ => hnone, fun d hd => ?_, fun d1 d2 hd => ?_⟩
    · have := hd.1; rw [hfo] at this; simp at this
    · obtain ⟨r, h1, _⟩ := hd; rw [hfo] at h1; simp at h1
  | cons x R =>
    have hx2 := dropWhile_head hD
    have hF0 : F ≠ [] := by rintro rfl; simp at hD
    have hsub : ∀ y ∈ x :: R, y ∈ F := fun y hy => (List.dropWhile_suffix _).mem (hD ▸ hy)
    have hxp := hpn x (hsub x (by simp))
    have hfo2 : folders k base p = x.1 :: (R.filter (·.2)).map (·.1) := by
      rw [hfo, hD]; simp [hx2]
    have hcomp : ∀ res : List Nat × Bool, (if e.ieq (u16 x.1) (u16 p.name) = true then (u16 x.1, true)
        else
          match nextDir (R.map shown) with
          | none =>
            match (if (u16 p.name).isPrefixOf (u16 x.1) = true then some (u16 x.1) else none) with
            | some b => (truncLcd e b (u16 x.1), true)
            | none => (u16 x.1, true)
          | some l2 =>
            match (match (if (u16 p.name).isPrefixOf (u16 x.1) = true then some (u16 x.1) else none) with
              | some b => some b
              | none => firstBest (u16 p.name) l2) with
            | some b => (truncLcd e b (match l2 with
              | [] => u16 x.1
              | g :: _ => truncLcd e (u16 x.1) g.name), false)
            | none => (match l2 with
              | [] => u16 x.1
              | g :: _ => truncLcd e (u16 x.1) g.name, false)) = res →
        component e (u16 base) (u16 p.text) = some (if res.1 = [] then u16 p.name else res.1, res.2) := by
      intro res hres
      unfold component
      simp only [hfind, hsd, if_neg hF0, nextDir_map, hD, dir_u16 hp]
      simp only [reduceCtorEq, if_false, List.map_cons]
      have hsn : (shown x).name = u16 x.1 := rfl
      rw [hsn, ← hres]; rfl
    have hsame := hs.same x.1 p.name hxp.1 hp.plain
    have hpre := u16_prefix hp.plain.text hxp.1.text
    refine ⟨fun h => ?_, fun d hd => ?_, fun d1 d2 hd => ?_⟩
    · rw [hfo2] at h; simp at h
    · obtain ⟨h1, h2⟩ := hd
      rw [hfo2] at h1 h2
      simp only [List.head?_cons, Option.some.injEq] at h1
      subst h1
      rw [hcomp (u16 x.1, true)]
      · have : u16 x.1 ≠ [] := fun h => hxp.2.1 (u16_inj_nil.1 h)
        simp [this]
      · by_cases hq : k.same x.1 p.name = true
        · rw [if_pos (by rw [hsame]; exact hq)]
        · rw [if_neg (by rw [hsame]; exact hq)]
          have hR : R.dropWhile (fun x => !x.2) = [] := by
            cases hRR : R.dropWhile (fun x => !x.2) with
            | nil => rfl
            | cons y R2 =>
              rcases h2 with h2 | h2
              · exact absurd h2 hq
              · rw [filter_dropWhile, hRR] at h2
                have := dropWhile_head hRR
                simp [this] at h2
          rw [nextDir_map, if_pos hR]
          by_cases hpx : (u16 p.name).isPrefixOf (u16 x.1) = true
          · rw [if_pos hpx]; simp only [truncLcd_self e hxp.1.text]
          · rw [if_neg hpx]
    · obtain ⟨r, h1, h2⟩ := hd
      rw [hfo2] at h1
      injection h1 with h1 h3
      subst h1
      rw [filter_dropWhile] at h3
      cases hRR : R.dropWhile (fun x => !x.2) with
      | nil => rw [hRR] at h3; simp at h3
      | cons y R2 =>
        have hy2 := dropWhile_head hRR
        rw [hRR] at h3
        simp only [List.filter_cons, hy2, if_true, List.map_cons, List.cons.injEq] at h3
        have hyd : y.1 = d2 := h3.1
        have hsubR : ∀ z ∈ y :: R2, z ∈ F := fun z hz =>
          hsub z (List.mem_cons_of_mem _ ((List.dropWhile_suffix _).mem (hRR ▸ hz)))
        have hyp := hpn y (hsubR y (by simp))
        obtain ⟨c, hc1, hc2, hc3⟩ := truncLcd_u16 e hxp.1.text hyp.1.text
        have hct : ∀ z ∈ c, IsText z := fun z hz => hxp.1.text z (hc1.subset hz)
        have hfb := firstBest_map hp.plain.text (y :: R2) (fun z hz => (hpn z (hsubR z hz)).1)
        have hmod := hmodel x.1
        rw [hD] at hmod
        simp only [List.drop_succ_cons, List.drop_zero, hRR] at hmod
        rw [hyd] at hc3
        have hnx : nextDir (R.map shown) = some ((y :: R2).map shown) := by
          rw [nextDir_map, hRR, if_neg (by simp)]
        have hw : (match (y :: R2).map shown with
              | [] => u16 x.1
              | g :: _ => truncLcd e (u16 x.1) g.name) = u16 c := hc2
        have hbest : (match (if (u16 p.name).isPrefixOf (u16 x.1) = true then some (u16 x.1) else none) with
              | some b => some b
              | none => firstBest (u16 p.name) ((y :: R2).map shown)) = (model k base p x.1).map u16 := by
          rw [hmod]
          by_cases hpx : p.name <+: x.1
          · rw [if_pos (by rw [List.isPrefixOf_iff_prefix]; exact hpre.2 hpx), if_pos hpx]; rfl
          · rw [if_neg (by rw [List.isPrefixOf_iff_prefix]; exact fun h => hpx (hpre.1 h)), if_neg hpx]; exact hfb
        cases hm : model k base p x.1 with
        | none =>
          rw [hm] at hbest
          refine ⟨if c = [] then p.name else c, ⟨c, rfl, ?_⟩, ?_⟩
          · rw [hm]; exact ⟨hc1, hc3⟩
          · rw [hcomp (u16 c, false)]
            · by_cases hc0 : c = []
              · subst hc0; simp [u16_inj_nil]
              · simp [u16_inj_nil, hc0]
            · rw [if_neg (by rw [hsame, h2]; simp)]
              simp only [hnx, hbest, hw]
              rfl
        | some b =>
          rw [hm] at hbest
          have hbp : ∀ z ∈ b, IsText z := by
            rw [hmod] at hm
            split at hm
            · injection hm with hm; rw [← hm]; exact hxp.1.text
            · have := List.mem_of_find?_eq_some hm
              rw [List.mem_map] at this
              obtain ⟨z, hz, rfl⟩ := this
              exact (hpn z (hsubR z hz)).1.text
          obtain ⟨c', hc1', hc2', hc3'⟩ := truncLcd_u16 e hbp hct
          rw [hc3] at hc3'
          refine ⟨if c' = [] then p.name else c', ⟨c', rfl, ?_⟩, ?_⟩
          · rw [hm]; exact ⟨hc1', hc3'⟩
          · rw [hcomp (u16 c', false)]
            · by_cases hc0 : c' = []
              · subst hc0; simp [u16_inj_nil]
              · simp [u16_inj_nil, hc0]
            · rw [if_neg (by rw [hsame, h2]; simp)]
              simp only [hnx, hbest, hw]
              simp only [Option.map_some, hc2']

end Clink.Abbrev
