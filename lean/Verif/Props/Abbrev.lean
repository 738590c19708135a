import Verif.Proof.AbbrevSafe
/-
C55: what abbreviated directory names are expanded to.
-/
namespace Clink.Abbrev
open Spec Clink.Utf
open Clink.StrCompare (isSep lcp)

variable {e : Env} {k : Disk}

/-- The drive of the path, if any, is a local one. -/
def Local (e : Env) (t : Typed) : Prop := ∀ c, t.drive = some c → e.usable [c, 58] = true

theorem local_any {t : Typed} (h : Local e t) :
    ¬ (t.drive.map fun c => [c, 58] : Option (List Nat)).any (fun d => !e.usable d) = true := by
  cases hd : t.drive with
  | none => simp
  | some c => simp [h c hd]

theorem drop_text {t : Typed} (h : t.Ok) {a b : List Nat} (hab : headText t = a ++ b) :
    (u8 t.text).drop ((u8 (headText t)).length - (u8 b).length) = u8 (b ++ t.seps.getLast h.seps.1 :: t.last) := by
  have h1 : u8 t.text = u8 a ++ u8 (b ++ t.seps.getLast h.seps.1 :: t.last) := by
    rw [text_split h, hab, ← u8_append]; simp
  rw [h1, hab, u8_append]
  have : (u8 a ++ u8 b).length - (u8 b).length = (u8 a).length := by simp
  rw [this, List.drop_left]

theorem Walk.last {base out : List Nat} {ps : List Piece} (hs : Shows e k) (h : Walk k base ps out) (hp : ps ≠ []) :
    ∃ a d, out = a ++ d ∧ d ≠ [] ∧ ∀ c ∈ d, ¬ Slash c := by
  induction h with
  | nil => exact absurd rfl hp
  | @cons base p ps d out h hw ih =>
    cases ps with
    | nil =>
      cases hw
      have := folders_plain hs h.mem
      exact ⟨_, d, rfl, this.2⟩
    | cons q qs => exact ih (by simp)

theorem last_name {a d : List Nat} (hd : d ≠ []) (hn : ∀ c ∈ d, ¬ Slash c) : isSep ((u8 (a ++ d)).getLastD 0) = false := by
  have h : a ++ d ≠ [] := by simp [hd]
  rw [last_u8 h]
  have : (a ++ d).getLast h = d.getLast hd := by simp [hd]
  rw [this]
  exact notSep (hn _ (List.getLast_mem hd))

/-- C55 (unique): if every directory name stands for one directory, then the names of these directories take
the place of what was typed, and the last name is left alone.  Nothing is done if that changes nothing. -/
theorem C55_unique (hs : Shows e k) {t : Typed} (ht : t.Ok) (hl : Local e t) {out : List Nat}
    (hw : Walk k (driveText t.drive) t.pieces out) :
    disambiguate e (u8 t.text) = some
      (if out ++ t.extra <+: t.text then ⟨[], u8 t.text, false⟩ else ⟨u8 (out ++ t.extra), u8 t.rest, true⟩) := by
  have hsd : ∀ c ∈ t.seps.dropLast, Slash c := fun c hc => ht.seps.2 c (List.dropLast_subset _ hc)
  obtain ⟨p, ps, hps, hq, _⟩ := ht.first
  have hr : ∀ c, t.seps.dropLast.head? = some c → Slash c := fun c hc => hsd c (List.mem_of_mem_head? hc)
  have hloop : loop e (u8 (dirText t ++ t.seps.dropLast)) (u16 (driveText t.drive)) false =
      some ([], u16 (out ++ t.extra), true) := by
    have := loop_walk hs hw ht.pieces (by rw [hps]; exact hq) (drive_plain ht) _ hr false
    unfold dirText
    rw [this, loop_end e hsd]
    have hx : u16 (t.seps.dropLast.drop (t.seps.dropLast.length - 1)) = t.seps.dropLast.drop (t.seps.dropLast.length - 1) :=
      u16_seps (fun c hc => hsd c (List.mem_of_mem_drop hc))
    have hlen : t.seps.dropLast.length - 1 = t.seps.length - 2 := by simp; omega
    rw [u16_append]
    unfold Typed.extra
    rw [hlen] at hx ⊢
    rw [hx, hps]; rfl
  have hop : Plain out := hw.plain hs ht.pieces (drive_plain ht)
  have hxs : ∀ c ∈ t.extra, Slash c := fun c hc => hsd c (List.mem_of_mem_drop hc)
  have hoe : Plain (out ++ t.extra) := hop.append (plain_seps hxs)
  rw [disambiguate_typed ht, if_neg (local_any hl), hloop]
  simp only [finish, narrow_u16 hoe.text]
  have hpre : (u8 (out ++ t.extra)).isPrefixOf (u8 t.text) = true ↔ out ++ t.extra <+: t.text := by
    rw [List.isPrefixOf_iff_prefix, u8_prefix hoe.text (text_plain ht).text]
  congr 1
  by_cases hc : out ++ t.extra <+: t.text
  · rw [if_pos ⟨trivial, hpre.2 hc⟩, if_pos hc]
  · rw [if_neg (fun h => hc (hpre.1 h.2)), if_neg hc]
    have hd := drop_text ht (a := headText t) (b := []) (by simp)
    have h0 : (u8 ([] : List Nat)).length = 0 := rfl
    rw [h0] at hd
    simp only [List.length_nil, hd, List.nil_append]
    congr 1
    obtain ⟨a, d, hod, hd0, hdn⟩ := Walk.last hs hw (by rw [hps]; simp)
    have hls := ht.seps.2 _ (List.getLast_mem ht.seps.1)
    by_cases h1 : t.seps.length = 1
    · have hx : t.extra = [] := by
        unfold Typed.extra
        have : t.seps.dropLast = [] := by
          apply List.eq_nil_of_length_eq_zero; simp [h1]
        rw [this]; simp
      rw [hx, List.append_nil, if_neg]
      · unfold Typed.rest
        rw [if_pos h1]
        congr 1
        obtain ⟨x, hx⟩ := List.length_eq_one_iff.1 h1
        simp [hx]
      · rw [hod, last_name hd0 hdn]; simp
    · have h2 : t.seps.length ≥ 2 := by
        have := List.length_pos_iff.2 ht.seps.1; omega
      have hx : t.extra ≠ [] := by
        unfold Typed.extra
        rw [Ne, List.drop_eq_nil_iff]; simp; omega
      have hne : out ++ t.extra ≠ [] := by simp [hx]
      have hla : isSep ((u8 (out ++ t.extra)).getLastD 0) = true := by
        rw [last_u8 hne]
        have : (out ++ t.extra).getLast hne = t.extra.getLast hx := by simp [hx]
        rw [this]; exact (isSep_iff _).2 (hxs _ (List.getLast_mem hx))
      rw [if_pos ⟨fun h => hne (u8_inj_nil.1 h), hla⟩]
      unfold Typed.rest
      rw [if_neg h1]
      unfold u8
      rw [dropWhile_flat _ _ _ (fun c _ => uni8 c)]
      congr 1
      exact (takeWhile_seps (s := [t.seps.getLast ht.seps.1]) (r := t.last) (by simpa using hls)
        (fun c hc => ht.last.1 c (List.mem_of_mem_head? hc))).2

/-- What the names of the disk and the typed name have in common: no separators. -/
theorem Becomes.name (hs : Shows e k) {base : List Nat} {p : Piece} (hp : p.Ok) {d1 d2 add : List Nat}
    (h : Several k base p d1 d2) (hb : Becomes e k base p d1 d2 add) :
    Plain add ∧ add ≠ [] ∧ ∀ c ∈ add, ¬ Slash c := by
  obtain ⟨c, rfl, hc⟩ := hb
  by_cases h0 : c = []
  · rw [if_pos h0]; exact ⟨hp.plain, hp.some, hp.name⟩
  · rw [if_neg h0]
    have key : ∃ n, c <+: n ∧ Plain n ∧ ∀ c ∈ n, ¬ Slash c := by
      obtain ⟨r, hr, _⟩ := h
      have h1 := folders_plain hs (base := base) (p := p) (d := d1) (by rw [hr]; simp)
      cases hm : model k base p d1 with
      | none => rw [hm] at hc; exact ⟨d1, hc.1, h1.1, h1.2.2⟩
      | some b =>
        rw [hm] at hc
        refine ⟨b, hc.1, ?_⟩
        unfold model at hm
        split at hm
        · injection hm with hm; subst hm; exact ⟨h1.1, h1.2.2⟩
        · have := List.mem_of_find?_eq_some hm
          rw [List.mem_map] at this
          obtain ⟨z, hz, rfl⟩ := this
          have hz' : z ∈ found k base p :=
            (List.dropWhile_suffix _).mem (List.mem_of_mem_drop ((List.dropWhile_suffix _).mem hz))
          have := found_plain hs base p z hz'
          exact ⟨this.1, this.2.2⟩
    obtain ⟨n, hn, hpl, hsl⟩ := key
    exact ⟨fun x hx => hpl x (hn.subset hx), h0, fun x hx => hsl x (hn.subset hx)⟩

/-- C55 (ambiguous): the directory names before the first one that can stand for several directories are
replaced; that one becomes what `Becomes` says; everything after it is left alone. -/
theorem C55_ambiguous (hs : Shows e k) {t : Typed} (ht : t.Ok) (hl : Local e t) {us vs : List Piece} {p : Piece}
    (hp : t.pieces = us ++ p :: vs) {base d1 d2 : List Nat} (hw : Walk k (driveText t.drive) us base)
    (h : Several k base p d1 d2) :
    ∃ add, Becomes e k base p d1 d2 add ∧ disambiguate e (u8 t.text) = some
      ⟨u8 (base ++ p.seps.take 1 ++ add), u8 (vs.flatMap Piece.text ++ t.seps ++ t.last), false⟩ := by
  obtain ⟨q, qs, hqs, hq, _⟩ := ht.first
  have hpo := ht.pieces p (by simp [hp])
  have huo : ∀ q ∈ us, q.Ok := fun q hq => ht.pieces q (by simp [hp, hq])
  have hbp : Plain base := hw.plain hs huo (drive_plain ht)
  have hsd : ∀ c ∈ t.seps.dropLast, Slash c := fun c hc => ht.seps.2 c (List.dropLast_subset _ hc)
  have hd1 : ∀ x ∈ t.pieces.drop 1, x.seps ≠ [] := by rw [hqs]; exact hq
  have hus : ∀ x ∈ us.drop 1, x.seps ≠ [] := by
    intro x hx
    apply hd1
    cases us with
    | nil => simp at hx
    | cons u us => rw [hp]; simp at hx ⊢; exact .inl hx
  have hvs : ∀ x ∈ vs, x.seps ≠ [] := by
    intro x hx
    apply hd1
    cases us with
    | nil => rw [hp]; simpa using hx
    | cons u us => rw [hp]; simp; exact .inr (.inr hx)
  have hr1 : ∀ c, (vs.flatMap Piece.text ++ t.seps.dropLast).head? = some c → Slash c := by
    intro c hc
    cases vs with
    | nil => exact hsd c (List.mem_of_mem_head? (by simpa using hc))
    | cons v vs =>
      cases hv : v.seps with
      | nil => exact absurd hv (hvs v (by simp))
      | cons x xs =>
        simp [Piece.text, hv] at hc; subst hc
        exact (ht.pieces v (by simp [hp])).seps x (by simp [hv])
  obtain ⟨add, ha, hadd⟩ := loop_several hs hpo hbp h _ hr1 (false || !us.isEmpty)
  refine ⟨add, ha, ?_⟩
  have han := Becomes.name hs hpo h ha
  have hloop : loop e (u8 (dirText t ++ t.seps.dropLast)) (u16 (driveText t.drive)) false =
      some (u8 (vs.flatMap Piece.text ++ t.seps.dropLast), u16 (base ++ p.seps.take 1 ++ add), false) := by
    have hsplit : dirText t ++ t.seps.dropLast =
        us.flatMap Piece.text ++ (p.text ++ (vs.flatMap Piece.text ++ t.seps.dropLast)) := by
      simp [dirText, hp]
    rw [hsplit]
    by_cases hu : us = []
    · subst hu; cases hw; simpa using hadd
    · have hps : ∀ c, (p.text ++ (vs.flatMap Piece.text ++ t.seps.dropLast)).head? = some c → Slash c := by
        intro c hc
        have hps : p.seps ≠ [] := hd1 p (by
          cases us with
          | nil => exact absurd rfl hu
          | cons u us => rw [hp]; simp)
        cases hv : p.seps with
        | nil => exact absurd hv hps
        | cons x xs =>
          simp [Piece.text, hv] at hc; subst hc
          exact hpo.seps x (by simp [hv])
      rw [loop_walk hs hw huo hus (drive_plain ht) _ hps false, hadd]
  rw [disambiguate_typed ht, if_neg (local_any hl), hloop]
  have hop : Plain (base ++ p.seps.take 1 ++ add) :=
    (hbp.append (plain_seps fun c hc => hpo.seps c (List.mem_of_mem_take hc))).append han.1
  simp only [finish, narrow_u16 hop.text, Bool.false_eq_true, false_and, if_false]
  have hd := drop_text ht (a := driveText t.drive ++ us.flatMap Piece.text ++ p.text)
    (b := vs.flatMap Piece.text ++ t.seps.dropLast) (by simp [headText, dirText, hp])
  rw [hd, last_name han.2.1 han.2.2]
  simp only [Bool.false_eq_true, and_false, if_false]
  congr 3
  have := List.dropLast_concat_getLast ht.seps.1
  conv => rhs; rw [← this]
  simp

/-- C55 (missing): nothing is expanded if there is no directory for one of the names. -/
theorem C55_missing (hs : Shows e k) {t : Typed} (ht : t.Ok) {us vs : List Piece} {p : Piece}
    (hp : t.pieces = us ++ p :: vs) {base : List Nat} (hw : Walk k (driveText t.drive) us base)
    (h : folders k base p = []) : disambiguate e (u8 t.text) = some ⟨[], u8 t.text, false⟩ := by
  obtain ⟨q, qs, hqs, hq, _⟩ := ht.first
  have hpo := ht.pieces p (by simp [hp])
  have huo : ∀ q ∈ us, q.Ok := fun q hq => ht.pieces q (by simp [hp, hq])
  have hbp : Plain base := hw.plain hs huo (drive_plain ht)
  have hsd : ∀ c ∈ t.seps.dropLast, Slash c := fun c hc => ht.seps.2 c (List.dropLast_subset _ hc)
  have hd1 : ∀ x ∈ t.pieces.drop 1, x.seps ≠ [] := by rw [hqs]; exact hq
  have hus : ∀ x ∈ us.drop 1, x.seps ≠ [] := by
    intro x hx
    apply hd1
    cases us with
    | nil => simp at hx
    | cons u us => rw [hp]; simp at hx ⊢; exact .inl hx
  have hvs : ∀ x ∈ vs, x.seps ≠ [] := by
    intro x hx
    apply hd1
    cases us with
    | nil => rw [hp]; simpa using hx
    | cons u us => rw [hp]; simp; exact .inr (.inr hx)
  have hr1 : ∀ c, (vs.flatMap Piece.text ++ t.seps.dropLast).head? = some c → Slash c := by
    intro c hc
    cases vs with
    | nil => exact hsd c (List.mem_of_mem_head? (by simpa using hc))
    | cons v vs =>
      cases hv : v.seps with
      | nil => exact absurd hv (hvs v (by simp))
      | cons x xs =>
        simp [Piece.text, hv] at hc; subst hc
        exact (ht.pieces v (by simp [hp])).seps x (by simp [hv])
  have hloop : loop e (u8 (dirText t ++ t.seps.dropLast)) (u16 (driveText t.drive)) false = none := by
    have hsplit : dirText t ++ t.seps.dropLast =
        us.flatMap Piece.text ++ (p.text ++ (vs.flatMap Piece.text ++ t.seps.dropLast)) := by
      simp [dirText, hp]
    rw [hsplit]
    by_cases hu : us = []
    · subst hu; cases hw; exact loop_missing hs hpo hbp h _ hr1 _
    · have hps : ∀ c, (p.text ++ (vs.flatMap Piece.text ++ t.seps.dropLast)).head? = some c → Slash c := by
        intro c hc
        have hps : p.seps ≠ [] := hd1 p (by
          cases us with
          | nil => exact absurd rfl hu
          | cons u us => rw [hp]; simp)
        cases hv : p.seps with
        | nil => exact absurd hv hps
        | cons x xs =>
          simp [Piece.text, hv] at hc; subst hc
          exact hpo.seps x (by simp [hv])
      rw [loop_walk hs hw huo hus (drive_plain ht) _ hps false]
      exact loop_missing hs hpo hbp h _ hr1 _
  rw [disambiguate_typed ht, hloop]
  split <;> rfl

/-- C55 (cases): every list of names is of one of the three kinds. -/
theorem C55_cases (k : Disk) (base : List Nat) (ps : List Piece) :
    (∃ out, Walk k base ps out) ∨
    ∃ us p vs b, ps = us ++ p :: vs ∧ Walk k base us b ∧ (folders k b p = [] ∨ ∃ d1 d2, Several k b p d1 d2) := by
  induction ps generalizing base with
  | nil => exact .inl ⟨base, .nil _⟩
  | cons p ps ih =>
    cases hf : folders k base p with
    | nil => exact .inr ⟨[], p, ps, base, rfl, .nil _, .inl hf⟩
    | cons d r =>
      by_cases hc : k.same d p.name = true ∨ (folders k base p).length = 1
      · have hch : Chosen k base p d := ⟨by rw [hf]; rfl, hc⟩
        rcases ih (base ++ p.seps.take 1 ++ d) with ⟨out, ho⟩ | ⟨us, q, vs, b, h1, h2, h3⟩
        · exact .inl ⟨out, .cons hch ho⟩
        · exact .inr ⟨p :: us, q, vs, b, by rw [h1]; rfl, .cons hch h2, h3⟩
      · cases r with
        | nil => rw [hf] at hc; simp at hc
        | cons d2 r =>
          refine .inr ⟨[], p, ps, base, rfl, .nil _, .inr ⟨d, d2, r, hf, ?_⟩⟩
          have : ¬ k.same d p.name = true := fun h => hc (.inl h)
          simpa using this

/-- C55 (drives): nothing is expanded on a drive that is remote or does not exist. -/
theorem C55_remote {t : Typed} (ht : t.Ok) {c : Nat} (hc : t.drive = some c) (hu : e.usable [c, 58] = false) :
    disambiguate e (u8 t.text) = some ⟨[], u8 t.text, false⟩ := by
  rw [disambiguate_typed ht, if_pos (by simp [hc, hu])]

theorem lastSep_none {l : List Nat} (h : ∀ c ∈ l.drop 1, ¬ Slash c) :
    lastSep l l.length = none ∨ lastSep l l.length = some 0 := by
  cases l with
  | nil => exact .inl rfl
  | cons x r =>
    have hr : ∀ c ∈ r, isSep c = false := fun c hc => notSep (h c (by simpa using hc))
    have key : ∀ j, j ≤ r.length → lastSep (x :: r) (j + 1) = none ∨ lastSep (x :: r) (j + 1) = some 0 := by
      intro j
      induction j with
      | zero => intro _; simp only [lastSep]; split <;> simp
      | succ j ih =>
        intro hj
        rw [lastSep]
        have : (x :: r).getD (j + 1) 0 = r[j]'(by omega) := by
          rw [List.getD_eq_getElem?_getD, List.getElem?_cons_succ, List.getElem?_eq_getElem (by omega)]; rfl
        rw [this, hr _ (List.getElem_mem _)]
        simpa using ih (by omega)
    exact key r.length (Nat.le_refl _)

/-- C55 (no directory): nothing is expanded if there is no separator after the first character. -/
theorem C55_plain_name (e : Env) {inp : List Nat} (h : ∀ c ∈ (inp.filter (· != 34)).drop 1, ¬ Slash c) :
    disambiguate e inp = some ⟨[], inp, false⟩ := by
  unfold disambiguate
  simp only [stripQuotes_eq]
  rcases lastSep_none h with h | h <;> rw [h] <;> rfl

/-- C55 (shares): nothing is expanded in the name of a share. -/
theorem C55_share (e : Env) {inp : List Nat} (h0 : 0 ∉ inp) (h : Path.Spec.uncRest (inp.filter (· != 34)) ≠ none) :
    disambiguate e inp = some ⟨[], inp, false⟩ := by
  have h0' : 0 ∉ inp.filter (· != 34) := fun hm => h0 (List.mem_filter.1 hm).1
  obtain ⟨o, ho, hm⟩ := Path.isUnc_to (at_cstr h0')
  have hos : o.isSome = true := by
    cases hu : Path.Spec.uncRest (inp.filter (· != 34)) with
    | none => exact absurd hu h
    | some r => rw [hu] at hm; obtain ⟨q, hq, _⟩ := hm; rw [hq]; rfl
  unfold disambiguate
  simp only [stripQuotes_eq]
  cases lastSep (inp.filter (· != 34)) (inp.filter (· != 34)).length with
  | none => rfl
  | some n =>
    cases n with
    | zero => rfl
    | succ n => simp only [ho, hos, Option.bind_eq_bind, Option.bind_some, if_true]; rfl

/-- C55 (in bounds): whatever is typed, nothing is read outside of it, and what is handed back as the rest is
the end of it. -/
theorem C55_in_bounds (e : Env) {inp : List Nat} (h0 : 0 ∉ inp) : ∃ r, disambiguate e inp = some r ∧ r.rest <:+ inp := by
  have h0' : 0 ∉ inp.filter (· != 34) := fun hm => h0 (List.mem_filter.1 hm).1
  obtain ⟨o, ho, _⟩ := Path.isUnc_to (at_cstr h0')
  obtain ⟨b, hb⟩ := isIncompleteUnc_some (at_cstr h0')
  have hp := Path.pastSsqs_at (at_cstr h0')
  obtain ⟨d, hd⟩ := getDrive_some ((at_cstr h0').drop (i := (inp.filter (· != 34)).length -
    ((Path.Spec.afterSsqs (inp.filter (· != 34))).getD (inp.filter (· != 34))).length) (by omega))
  rw [Nat.zero_add] at hd
  have hno : ∃ r, some (⟨[], inp, false⟩ : Result) = some r ∧ r.rest <:+ inp := ⟨_, rfl, List.suffix_refl _⟩
  unfold disambiguate
  simp only [stripQuotes_eq]
  cases lastSep (inp.filter (· != 34)) (inp.filter (· != 34)).length with
  | none => exact hno
  | some n =>
    cases n with
    | zero => exact hno
    | succ n =>
      simp only [ho, hb, hp, hd, Option.bind_eq_bind, Option.bind_some]
      split
      · exact hno
      · split
        · exact hno
        · split
          · exact hno
          · split
            · exact hno
            · split
              · exact hno
              · refine ⟨_, rfl, ?_⟩
                unfold finish
                simp only
                split
                · exact List.suffix_refl _
                · split
                  · exact (List.dropWhile_suffix _).trans (List.drop_suffix _ _)
                  · exact List.drop_suffix _ _

/-- C55 (quotes): quotes make no difference for what is expanded.  (They do for what is handed back as the
rest, see `C55_quotes_violated`.) -/
theorem C55_quotes (e : Env) (inp : List Nat) :
    (disambiguate e inp).map (fun r => (r.out, r.unique)) =
      (disambiguate e (inp.filter (· != 34))).map (fun r => (r.out, r.unique)) := by
  unfold disambiguate
  have : (inp.filter (· != 34)).filter (· != 34) = inp.filter (· != 34) := by simp
  simp only [stripQuotes_eq, this]
  generalize inp.filter (· != 34) = tmp
  cases lastSep tmp tmp.length with
  | none => rfl
  | some n =>
    cases n with
    | zero => rfl
    | succ n =>
      simp only [Option.bind_eq_bind]
      cases Path.isUnc (Path.cstr tmp) 0 with
      | none => rfl
      | some o =>
        simp only [Option.bind_some]
        split
        · rfl
        · cases isIncompleteUnc (Path.cstr tmp) with
          | none => rfl
          | some b =>
            simp only [Option.bind_some]
            split
            · rfl
            · cases Path.pastSsqs (Path.cstr tmp) 0 with
              | none => rfl
              | some q =>
                simp only [Option.bind_some]
                cases getDrive (Path.cstr tmp) q with
                | none => rfl
                | some d =>
                  simp only [Option.bind_some]
                  split
                  · rfl
                  · split
                    · rfl
                    · split
                      · rfl
                      · unfold finish
                        simp only [Option.pure_def, Option.map_some]
                        split <;> rfl

theorem prefix_lcp {a x y : List Nat} (hx : a <+: x) (hy : a <+: y) : a <+: lcp x y := by
  induction a generalizing x y with
  | nil => exact List.nil_prefix
  | cons c a ih =>
    obtain ⟨r, rfl⟩ := hx
    obtain ⟨s, rfl⟩ := hy
    simp only [List.cons_append, lcp, if_true]
    exact List.cons_prefix_cons.2 ⟨rfl, ih ⟨r, rfl⟩ ⟨s, rfl⟩⟩

/-- C55 (nothing is taken away): if everything found begins with what was typed, as names are compared at the
moment, then so does what the name becomes. -/
theorem C55_begins {base : List Nat} {p : Piece} {d1 d2 add : List Nat} (h : Several k base p d1 d2)
    (hb : Becomes e k base p d1 d2 add) (hf : ∀ x ∈ found k base p, nameKey e p.name <+: nameKey e x.1) :
    nameKey e p.name <+: nameKey e add := by
  obtain ⟨c, rfl, hc⟩ := hb
  obtain ⟨r, hr, _⟩ := h
  have hfo : ∀ d ∈ folders k base p, nameKey e p.name <+: nameKey e d := by
    intro d hd
    unfold folders at hd
    rw [List.mem_map] at hd
    obtain ⟨x, hx, rfl⟩ := hd
    exact hf x (List.mem_filter.1 hx).1
  have h1 := hfo d1 (by rw [hr]; simp)
  have h2 := hfo d2 (by rw [hr]; simp)
  by_cases h0 : c = []
  · rw [if_pos h0]; exact List.prefix_refl _
  · rw [if_neg h0]
    cases hm : model k base p d1 with
    | none => rw [hm] at hc; rw [hc.2]; exact prefix_lcp h1 h2
    | some b =>
      rw [hm] at hc
      rw [hc.2]
      refine prefix_lcp ?_ (prefix_lcp h1 h2)
      unfold model at hm
      split at hm
      · injection hm with hm; subst hm; exact h1
      · have := List.mem_of_find?_eq_some hm
        rw [List.mem_map] at this
        obtain ⟨z, hz, rfl⟩ := this
        exact hf z ((List.dropWhile_suffix _).mem (List.mem_of_mem_drop ((List.dropWhile_suffix _).mem hz)))

theorem lcp_comm (x y : List Nat) : lcp x y = lcp y x := by
  induction x generalizing y with
  | nil => cases y <;> rfl
  | cons a x ih =>
    cases y with
    | nil => rfl
    | cons b y =>
      simp only [lcp]
      by_cases h : a = b
      · subst h; simp [ih]
      · rw [if_neg h, if_neg (fun h' => h h'.symm)]

theorem lcp_lcp (x y : List Nat) : lcp x (lcp x y) = lcp x y := by
  induction x generalizing y with
  | nil => cases y <;> rfl
  | cons a x ih =>
    cases y with
    | nil => rfl
    | cons b y =>
      simp only [lcp]
      by_cases h : a = b
      · subst h; simp [lcp, ih]
      · rw [if_neg h]; rfl

/-- C55 (two directories): if exactly two directories and nothing else are found, then the name becomes what
they have in common (or stays as it is, if that is nothing). -/
theorem C55_two {base : List Nat} {p : Piece} {d1 d2 add : List Nat} (h : found k base p = [(d1, true), (d2, true)])
    (hb : Becomes e k base p d1 d2 add) :
    nameKey e add = lcp (nameKey e d1) (nameKey e d2) ∨ add = p.name ∧ lcp (nameKey e d1) (nameKey e d2) = [] := by
  obtain ⟨c, rfl, hc⟩ := hb
  have key : nameKey e c = lcp (nameKey e d1) (nameKey e d2) := by
    cases hm : model k base p d1 with
    | none => rw [hm] at hc; exact hc.2
    | some b =>
      rw [hm] at hc
      rw [hc.2]
      unfold model at hm
      rw [h] at hm
      split at hm
      · injection hm with hm; subst hm; exact lcp_lcp _ _
      · have := List.mem_of_find?_eq_some hm
        simp at this
        subst this
        rw [lcp_comm (nameKey e d1), lcp_lcp]
  by_cases h0 : c = []
  · rw [if_pos h0]
    refine .inr ⟨rfl, ?_⟩
    rw [← key, h0]; simp [nameKey, StrCompare.key]
  · rw [if_neg h0]; exact .inl key

/-! ## A disk -/

/-- Text as code points. -/
def txt (s : String) : List Nat := s.toList.map Char.toNat

/-- `CharLowerW` for ASCII. -/
def low (c : Nat) : Nat := if 65 ≤ c ∧ c ≤ 90 then c + 32 else c

/-- A disk with the given directories and files: `(folder, name, is directory)`.  Searching for the start of
a name and a star gives the names in this order; the case does not matter. -/
def disk (files : List (List Nat × List Nat × Bool)) : Disk where
  ls p := (files.filter fun f => (p.getLastD 0 == 42) && ((p.dropLast).map low).isPrefixOf ((f.1 ++ f.2.1).map low) &&
    decide (f.1.length ≤ p.length - 1)).map (·.2)
  same a b := a.map low == b.map low

/-- A system that shows a disk; names are compared without regard to case (`match.ignore_case`). -/
def sys (k : Disk) (mode : Nat) : Env where
  find p := (k.ls (cps16 p)).map fun x => ⟨u16 x.1, x.2⟩
  usable d := d != txt "z:"
  ieq a b := k.same (cps16 a) (cps16 b)
  lower := low
  mode := ⟨mode, false, false⟩

theorem cps16_u16 {p : List Nat} (h : Plain p) : cps16 (u16 p) = p := by
  have := cps16_flat p h.text []
  simpa [cps16_nil, u16] using this

theorem sys_shows {files : List (List Nat × List Nat × Bool)} (mode : Nat)
    (h : ∀ f ∈ files, Plain f.2.1 ∧ f.2.1 ≠ [] ∧ ∀ c ∈ f.2.1, ¬ Slash c) : Shows (sys (disk files) mode) (disk files) where
  find p hp := by simp only [sys, cps16_u16 hp]
  same a b ha hb := by simp only [sys, cps16_u16 ha, cps16_u16 hb]
  names p x hx := by
    simp only [disk, List.mem_map] at hx
    obtain ⟨f, hf, rfl⟩ := hx
    exact h f (List.mem_filter.1 hf).1

instance (c : Nat) : Decidable (Slash c) := by unfold Slash; infer_instance
instance (s : List Nat) : Decidable (Plain s) := by unfold Plain; infer_instance
instance (c : Nat) : Decidable (Letter c) := by unfold Letter; infer_instance

/-- The directories of the documentation of `os.expandabbreviatedpath`. -/
def docFiles : List (List Nat × List Nat × Bool) :=
  ["bag", "bookkeeper", "bookkeeping", "box", "boxes"].map fun s => (txt "d:\\", txt s, true)

def doc : Env := sys (disk docFiles) 1

theorem doc_shows : Shows doc (disk docFiles) := sys_shows 1 (by decide +kernel)

/-- What a script gets, for readability. -/
def script (e : Env) (s : String) : Option (Option (List Nat × List Nat × Bool)) := expandAbbreviatedPath e (txt s)

/-- The examples of the documentation that are as documented. -/
example : script doc "d:\\b\\file" = some (some (txt "d:\\b", txt "\\file", false)) := by decide +kernel
example : script doc "d:\\ba\\file" = some (some (txt "d:\\bag", txt "\\file", true)) := by decide +kernel
example : script doc "d:\\boo\\file" = some (some (txt "d:\\bookkeep", txt "\\file", false)) := by decide +kernel
example : script doc "d:\\boxe\\file" = some (some (txt "d:\\boxes", txt "\\file", true)) := by decide +kernel
example : script doc "d:\\boxes\\file" = some none := by decide +kernel

/-- A path on a drive, for the examples. -/
theorem typed_ok {d : Nat} (hd : Letter d) {p : Piece} {ps : List Piece} {seps last : List Nat}
    (h : (∀ q ∈ p :: ps, (∀ c ∈ q.seps, Slash c) ∧ (∀ c ∈ q.name, ¬ Slash c) ∧ q.name ≠ [] ∧ Plain q.name) ∧
      (∀ q ∈ ps, q.seps ≠ []) ∧ seps ≠ [] ∧ (∀ c ∈ seps, Slash c) ∧ (∀ c ∈ last, ¬ Slash c) ∧ Plain last) :
    (⟨some d, p :: ps, seps, last⟩ : Typed).Ok where
  drive c hc := by simp at hc; exact hc ▸ hd
  first := ⟨p, ps, rfl, h.2.1, by simp⟩
  pieces q hq := ⟨(h.1 q hq).1, (h.1 q hq).2.1, (h.1 q hq).2.2.1, (h.1 q hq).2.2.2⟩
  seps := ⟨h.2.2.1, h.2.2.2.1⟩
  last := h.2.2.2.2

/-- `d:\ba\\file`, with two separators at the end. -/
def tBa : Typed := ⟨some 100, [⟨[92], txt "ba"⟩], [92, 92], txt "file"⟩
theorem tBa_ok : tBa.Ok := typed_ok (by decide) (by decide)

/-- The hypotheses of `C55_unique` hold, and there is something to expand. -/
example : disambiguate doc (u8 tBa.text) = some ⟨u8 (txt "d:\\bag\\"), u8 (txt "file"), true⟩ := by
  have hw : Walk (disk docFiles) (driveText tBa.drive) tBa.pieces (txt "d:\\bag") :=
    .cons (d := txt "bag") ⟨by decide +kernel, by decide +kernel⟩ (.nil _)
  have h := C55_unique doc_shows tBa_ok (fun c hc => by cases hc; decide +kernel) hw
  rw [if_neg (by decide +kernel)] at h
  exact h

/-- `d:\bo\x\file`. -/
def tBo : Typed := ⟨some 100, [⟨[92], txt "boo"⟩, ⟨[92], txt "x"⟩], [92], txt "file"⟩
theorem tBo_ok : tBo.Ok := typed_ok (by decide) (by decide)
theorem tBo_several : Several (disk docFiles) (txt "d:") ⟨[92], txt "boo"⟩ (txt "bookkeeper") (txt "bookkeeping") :=
  ⟨[], by decide +kernel, by decide +kernel⟩

/-- The hypotheses of `C55_ambiguous`, `C55_begins` and `C55_two` hold. -/
example : ∃ add, nameKey doc add = txt "bookkeep" ∧ nameKey doc (txt "boo") <+: nameKey doc add ∧
    disambiguate doc (u8 tBo.text) = some ⟨u8 (txt "d:\\" ++ add), u8 (txt "\\x\\file"), false⟩ := by
  obtain ⟨add, h1, h2⟩ := C55_ambiguous doc_shows tBo_ok (fun c hc => by cases hc; decide +kernel) (us := [])
    (p := ⟨[92], txt "boo"⟩) (vs := [⟨[92], txt "x"⟩]) rfl (.nil _) tBo_several
  refine ⟨add, ?_, C55_begins tBo_several h1 (by decide +kernel), h2⟩
  rcases C55_two (by decide +kernel) h1 with h | h
  · rw [h]; decide +kernel
  · exact absurd h.2 (by decide +kernel)

/-- The hypotheses of `C55_missing` hold: the second name is missing. -/
example : disambiguate doc (u8 (txt "d:\\ba\\q\\f")) = some ⟨[], u8 (txt "d:\\ba\\q\\f"), false⟩ :=
  C55_missing doc_shows (t := ⟨some 100, [⟨[92], txt "ba"⟩, ⟨[92], txt "q"⟩], [92], txt "f"⟩)
    (typed_ok (by decide) (by decide)) (us := [⟨[92], txt "ba"⟩]) (p := ⟨[92], txt "q"⟩) (vs := []) rfl
    (base := txt "d:\\bag") (.cons (d := txt "bag") ⟨by decide +kernel, by decide +kernel⟩ (.nil _)) (by decide +kernel)

/-- The hypotheses of `C55_remote`, `C55_plain_name`, `C55_share` and `C55_in_bounds` hold. -/
example : disambiguate doc (u8 (txt "z:\\ba\\f")) = some ⟨[], u8 (txt "z:\\ba\\f"), false⟩ :=
  C55_remote (t := ⟨some 122, [⟨[92], txt "ba"⟩], [92], txt "f"⟩) (typed_ok (by decide) (by decide)) rfl (by decide +kernel)
example : disambiguate doc (txt "\\ba") = some ⟨[], txt "\\ba", false⟩ := C55_plain_name doc (by decide +kernel)
example : disambiguate doc (txt "\\\\\"srv\"\\sh\\ba\\f") = some ⟨[], txt "\\\\\"srv\"\\sh\\ba\\f", false⟩ :=
  C55_share doc (by decide +kernel) (by decide +kernel)
example : ∃ r, disambiguate doc [34, 0xC3, 92, 0xFF, 92] = some r ∧ r.rest <:+ [34, 0xC3, 92, 0xFF, 92] :=
  C55_in_bounds doc (by decide)

/-! ## What is not as it should be -/

/-- Violated: a name does not become what *all* directories that it can stand for have in common; only the
first two count.  The documentation says that `d:\bo\file` gives `d:\bo`. -/
theorem C55_third_violated :
    script doc "d:\\bo\\file" = some (some (txt "d:\\bookkeep", txt "\\file", false)) ∧
    txt "box" ∈ folders (disk docFiles) (txt "d:") ⟨[92], txt "bo"⟩ := by decide +kernel

/-- Violated: according to the documentation `d:\box\file` gives `d:\box` and is ambiguous.  It gives nil, as for
names that are unique and complete. -/
theorem C55_exact_violated :
    script doc "d:\\box\\file" = some none ∧
    folders (disk docFiles) (txt "d:") ⟨[92], txt "box"⟩ = [txt "box", txt "boxes"] := by decide +kernel

/-- Violated: with a quote in the text, what is handed back as the rest begins too early, so that the two
parts together are not the path. -/
theorem C55_quotes_violated :
    script doc "\"d:\\ba\"\\file" = some (some (txt "d:\\bag", txt "a\"\\file", true)) ∧
    script doc "d:\\ba\\file" = some (some (txt "d:\\bag", txt "\\file", true)) := by decide +kernel

/-- A directory with a hidden directory in it. -/
def gitDisk : Disk := disk [([], [46], true), ([], [46, 46], true), ([], txt ".git", true), ([], txt "bag", true)]

/-- Violated: `.` stands for the current directory, but is taken for an abbreviation: `.\file` becomes
`.git\file`. -/
theorem C55_dot_violated :
    script (sys gitDisk 1) ".\\file" = some (some (txt ".git", txt "\\file", true)) ∧
    script (sys gitDisk 1) ".\\ba\\file" = some none ∧
    script (sys gitDisk 1) "ba\\file" = some (some (txt "bag", txt "\\file", true)) := by decide +kernel

/-- Violated: whether a complete name is recognised depends on the order in which the system lists the
directories. -/
theorem C55_order_violated :
    script (sys (disk [([], txt "box", true), ([], txt "boxes", true), (txt "box\\", txt "inner", true)]) 1) "box\\in\\f" =
      some (some (txt "box\\inner", txt "\\f", true)) ∧
    script (sys (disk [([], txt "boxes", true), ([], txt "box", true), (txt "box\\", txt "inner", true)]) 1) "box\\in\\f" =
      some (some (txt "box", txt "\\in\\f", false)) := by decide +kernel

/-- Violated: if names are compared exactly (`match.ignore_case` is off) then part of what was typed can be
taken away: `bo` becomes `b`. -/
theorem C55_shorter_violated :
    script (sys (disk [([], txt "bOok", true), ([], txt "box", true)]) 0) "bo\\f" =
      some (some (txt "b", txt "\\f", false)) := by decide +kernel

/-- Violated: a file makes a difference for what the names of directories have in common. -/
theorem C55_file_violated :
    script (sys (disk [([], txt "BOok1", true), ([], txt "BOok2", true)]) 1) "bo\\f" =
      some (some (txt "BOok", txt "\\f", false)) ∧
    script (sys (disk [([], txt "BOok1", true), ([], txt "BOok2", true), ([], txt "bo.txt", false)]) 1) "bo\\f" =
      some (some (txt "bo", txt "\\f", false)) := by decide +kernel

/-- Violated: two separators after a drive are reported as an ambiguous directory. -/
theorem C55_double_violated :
    script doc "d:\\\\bo" = some (some (txt "d:\\", txt "bo", false)) := by decide +kernel

end Clink.Abbrev
