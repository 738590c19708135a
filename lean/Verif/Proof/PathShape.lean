import Verif.Proof.PathSem

/-! The shape of a normalised path, and normalising it again. -/

namespace Clink.Path

open StrCompare (isSep)
open Spec

/-- The text begins with a separator. -/
def startsSep (l : List Nat) : Bool := match l with | [] => false | c :: _ => isSep c

theorem NoDouble_append {x y : List Nat} :
    NoDouble (x ++ y) ↔ NoDouble x ∧ NoDouble y ∧
      ¬ (∃ c d, x.getLast? = some c ∧ y.head? = some d ∧ isSep c = true ∧ isSep d = true) := by
  induction x with
  | nil => simp [NoDouble]
  | cons a x ih =>
    cases x with
    | nil =>
      cases y with
      | nil => simp [NoDouble]
      | cons b y => simp [NoDouble, and_comm]
    | cons b x =>
      simp only [List.cons_append, NoDouble] at ih ⊢
      rw [ih]
      have : (a :: b :: x).getLast? = (b :: x).getLast? := by simp [List.getLast?_cons]
      rw [this]
      constructor
      · rintro ⟨h1, h2, h3, h4⟩; exact ⟨⟨h1, h2⟩, h3, h4⟩
      · rintro ⟨⟨h1, h2⟩, h3, h4⟩; exact ⟨h1, h2, h3, h4⟩

theorem NoDouble_noSep {n : List Nat} (h : ∀ c ∈ n, isSep c = false) : NoDouble n := by
  induction n with
  | nil => simp [NoDouble]
  | cons a n ih =>
    cases n with
    | nil => simp [NoDouble]
    | cons b n =>
      refine ⟨fun h' => ?_, ih fun c hc => h c (List.mem_cons_of_mem _ hc)⟩
      rw [h a (by simp)] at h'
      simp at h'

/-- Text made of names and single separators `sep`, not beginning with a separator. -/
structure Plain (sep : Nat) (t : List Nat) : Prop where
  seps : ∀ c ∈ t, isSep c = true → c = sep
  nodbl : NoDouble t
  start : startsSep t = false

theorem Name.startsSep {n : List Nat} (h : Name n) (x : List Nat) : startsSep (n ++ x) = false := by
  obtain ⟨h1, h2⟩ := h
  cases n with
  | nil => simp at h1
  | cons c n => exact h2 c (by simp)

theorem plain_append_name {sep : Nat} {x n : List Nat} (hx : Plain sep x) (hn : Name n) : Plain sep (x ++ n) := by
  refine ⟨?_, ?_, ?_⟩
  · intro c hc hs
    rcases List.mem_append.1 hc with h | h
    · exact hx.seps c h hs
    · rw [hn.2 c h] at hs; simp at hs
  · rw [NoDouble_append]
    refine ⟨hx.nodbl, NoDouble_noSep hn.2, ?_⟩
    rintro ⟨c, d, -, hd, -, hds⟩
    rw [hn.2 d (List.mem_of_head? hd)] at hds
    simp at hds
  · cases x with
    | nil => simpa using hn.startsSep []
    | cons c x => exact hx.start

theorem plain_close {sep : Nat} {x n : List Nat} (hs : isSep sep = true) (hx : Plain sep x) (hn : Name n) : Plain sep (x ++ (n ++ [sep])) := by
  have h1 := plain_append_name hx hn
  rw [← List.append_assoc]
  refine ⟨?_, ?_, ?_⟩
  · intro c hc hcs
    rcases List.mem_append.1 hc with h | h
    · exact h1.seps c h hcs
    · simpa using h
  · rw [NoDouble_append]
    refine ⟨h1.nodbl, by simp [NoDouble], ?_⟩
    rintro ⟨c, d, hc, -, hcs, -⟩
    rw [List.getLast?_append] at hc
    cases hl : n.getLast? with
    | none => exact hn.1 (List.getLast?_eq_none_iff.1 hl)
    | some z =>
      rw [hl] at hc
      simp at hc
      rw [← hc, hn.2 z (List.mem_of_getLast? hl)] at hcs
      simp at hcs
  · have := h1.start
    cases h : x ++ n with
    | nil => exact absurd (List.append_eq_nil_iff.1 h).2 hn.1
    | cons c y => rw [h] at this; exact this

theorem render_plain {sep : Nat} (hs : isSep sep = true) {st : List (List Nat)} (h : ∀ n ∈ st, Name n) : Plain sep (render sep st) := by
  induction st with
  | nil => exact ⟨by simp [render], by simp [render, NoDouble], rfl⟩
  | cons n st ih =>
    rw [render]
    exact plain_close hs (ih fun m hm => h m (List.mem_cons_of_mem _ hm)) (h n (by simp))

theorem render_names {sep : Nat} (hs : isSep sep = true) {st : List (List Nat)} (h : ∀ n ∈ st, Name n) :
    names (render sep st) = st.reverse ∧ ∀ n, Name n → names (render sep st ++ n) = st.reverse ++ [n] := by
  induction st with
  | nil => exact ⟨rfl, fun n hn => by simpa [render] using names_noSep hn.2 hn.1⟩
  | cons m st ih =>
    obtain ⟨-, h2⟩ := ih fun k hk => h k (List.mem_cons_of_mem _ hk)
    have hm := h2 m (h m (by simp))
    rw [render]
    constructor
    · have := names_append_sep hs (render sep st ++ m) []
      rw [names_nil, List.append_nil, hm] at this
      simpa using this
    · intro n hn
      have := names_append_sep hs (render sep st ++ m) n
      rw [hm, names_noSep hn.2 hn.1] at this
      simpa using this

/-- What the text after the prefix looks like: nothing or a separator in the rooted case, then plain text. -/
def Shape (sep : Nat) (rooted : Bool) (t : List Nat) : Prop :=
  if rooted then t = [] ∨ ∃ u, t = sep :: u ∧ Plain sep u else Plain sep t

theorem shape_of {sep : Nat} (hs : isSep sep = true) {unc : Bool} {st : List (List Nat)} {out : List Nat}
    (hn : ∀ n ∈ st, Name n) (h : Closed sep unc st out ∨ Open sep unc st out) :
    Shape sep unc out ∧ names out = st.reverse := by
  have hcons : ∀ x, names (sep :: x) = names x := by
    intro x
    have := names_append_sep hs [] x
    simpa [names_nil] using this
  rcases h with h | ⟨n, st', o, rfl, h, rfl⟩
  · have h1 := render_plain hs hn
    have h2 := (render_names hs hn).1
    rcases h with ⟨rfl, rfl⟩ | ⟨rfl, rfl | ⟨rfl, rfl⟩⟩
    · exact ⟨h1, h2⟩
    · exact ⟨.inr ⟨_, rfl, h1⟩, by rw [hcons]; exact h2⟩
    · exact ⟨.inl rfl, rfl⟩
  · have hn' : ∀ n ∈ st', Name n := fun m hm => hn m (List.mem_cons_of_mem _ hm)
    have hnn : Name n := hn n (by simp)
    have h1 := plain_append_name (render_plain hs hn') hnn
    have h2 := (render_names hs hn').2 n hnn
    rcases h with ⟨rfl, rfl⟩ | ⟨rfl, rfl | ⟨rfl, rfl⟩⟩
    · simp only [put, Bool.false_and, Bool.false_eq_true, if_false, List.append_nil]
      exact ⟨h1, by simpa using h2⟩
    · simp only [put, List.isEmpty_cons, Bool.and_false, Bool.false_eq_true, if_false, List.append_nil, List.cons_append]
      exact ⟨.inr ⟨_, rfl, h1⟩, by rw [hcons]; simpa using h2⟩
    · simp only [render, List.nil_append] at h1 h2
      simp only [put, List.isEmpty_nil, Bool.and_self, if_true, Bool.false_eq_true, if_false, List.append_nil,
        List.singleton_append]
      exact ⟨.inr ⟨_, rfl, h1⟩, by rw [hcons]; simpa using h2⟩

theorem closed_ends {sep : Nat} {unc : Bool} {st : List (List Nat)} {out : List Nat}
    (h : Closed sep unc st out) : out = [] ∨ out.getLast? = some sep := by
  by_cases hne : out = []
  · exact .inl hne
  · obtain ⟨o, rfl⟩ := render_last h hne
    right; simp

theorem open_ends {sep : Nat} {unc : Bool} {st : List (List Nat)} {out n : List Nat} {st0 : List (List Nat)}
    (h : Open sep unc st out) (hst : st = n :: st0) : n <:+ out := by
  obtain ⟨n', st', o, h1, -, rfl⟩ := h
  rw [hst] at h1
  injection h1 with h1
  subst h1
  simp [put]

/-- No components above the start: `..` only in front. -/
theorem resolve_shape (clamp : Bool) (l : List (List Nat)) :
    ∃ ps j, resolve clamp l = List.replicate j [46, 46] ++ ps ∧ (∀ n ∈ ps, n ≠ [46] ∧ n ≠ [46, 46]) ∧ (clamp = true → j = 0) := by
  have key : ∀ (l : List (List Nat)) (st ps : List (List Nat)) (j : Nat), st = ps ++ List.replicate j [46, 46] →
      (∀ n ∈ ps, n ≠ [46] ∧ n ≠ [46, 46]) → (clamp = true → j = 0) →
      ∃ ps j, l.foldl (resolve1 clamp) st = ps ++ List.replicate j [46, 46] ∧ (∀ n ∈ ps, n ≠ [46] ∧ n ≠ [46, 46]) ∧ (clamp = true → j = 0) := by
    intro l
    induction l with
    | nil => intro st ps j h1 h2 h3; exact ⟨ps, j, h1, h2, h3⟩
    | cons n l ih =>
      intro st ps j h1 h2 h3
      rw [List.foldl_cons]
      generalize hF : List.foldl (resolve1 clamp) = F at ih ⊢
      unfold resolve1
      split
      · exact ih st ps j h1 h2 h3
      · split
        · rename_i hn1 hn2
          subst hn2
          cases ps with
          | nil =>
            cases j with
            | zero =>
              simp only [List.nil_append, List.replicate_zero] at h1
              subst h1
              simp only
              split
              · exact ih [] [] 0 rfl (by simp) (fun _ => rfl)
              · rename_i hcl; exact ih _ [] 1 rfl (by simp) (by simp [hcl])
            | succ j =>
              simp only [List.nil_append, List.replicate_succ] at h1
              subst h1
              simp only [if_true]
              refine ih _ [] (j + 2) ?_ (by simp) (fun h => by have := h3 h; omega)
              simp [List.replicate_succ]
          | cons t ps =>
            subst h1
            have ht := (h2 t (by simp)).2
            simp only [List.cons_append, if_neg ht]
            exact ih _ ps j rfl (fun m hm => h2 m (List.mem_cons_of_mem _ hm)) h3
        · rename_i hn1 hn2
          refine ih _ (n :: ps) j (by simp [h1]) ?_ h3
          intro m hm
          rcases List.mem_cons.1 hm with rfl | hm
          · exact ⟨hn1, hn2⟩
          · exact h2 m hm
  obtain ⟨ps, j, h1, h2, h3⟩ := key l [] [] 0 rfl (by simp) (fun _ => rfl)
  refine ⟨ps.reverse, j, ?_, ?_, h3⟩
  · simp [resolve, h1]
  · intro n hn; exact h2 n (List.mem_reverse.1 hn)

theorem resolve_fold (clamp : Bool) (l : List (List Nat)) : (l.foldl (resolve1 clamp) []).reverse = resolve clamp l := rfl

/-- Elements of plain text are written back as they are. -/
theorem fold_noop {sep : Nat} {eat unc : Bool} (r : List Nat) (hr : Plain sep r)
    (out : List Nat) (count : Nat) (hout : unc = true → out ≠ [])
    (hnames : (∀ n ∈ names r, n ≠ [46] ∧ n ≠ [46, 46]) ∨
      (count = 0 ∧ eat = false ∧ ∃ j ps, names r = List.replicate j [46, 46] ++ ps ∧ ∀ n ∈ ps, n ≠ [46] ∧ n ≠ [46, 46])) :
    ((elems r).foldl (stepL sep true eat unc) (out, count)).1 = out ++ r := by
  by_cases hne : r = []
  · subst hne; simp [elems]
  have hel := elems_cons hne
  have hnm := names_split r
  have htl := tailOf_le r
  have hpos := List.length_pos_iff.2 hne
  have hlt : ((tailOf r).drop 1).length < r.length := by simp; omega
  have hafter : afterSeps r = r := by
    cases r with
    | nil => rfl
    | cons c l => have : isSep c = false := hr.start; simp [afterSeps, this]
  have hsplit : r = nameOf r ++ tailOf r := by rw [name_tail, hafter]
  have hn : nameOf r ≠ [] := by
    intro h
    rw [h, List.nil_append] at hsplit
    cases hr' : r with
    | nil => exact hne hr'
    | cons c l =>
      have h1 := hr.start
      rw [hr'] at h1 hsplit
      simp [startsSep, tailOf_head hsplit.symm] at h1
  rw [if_neg hn] at hnm
  -- one step writes the name
  have hstep : ∃ count', stepL sep true eat unc (out, count) (nameOf r, !(tailOf r).isEmpty)
      = (out ++ nameOf r ++ (if (!(tailOf r).isEmpty) = true then [sep] else []), count') ∧
      ((∀ n ∈ names ((tailOf r).drop 1), n ≠ [46] ∧ n ≠ [46, 46]) ∨
        (count' = 0 ∧ eat = false ∧ ∃ j ps, names ((tailOf r).drop 1) = List.replicate j [46, 46] ++ ps ∧ ∀ n ∈ ps, n ≠ [46] ∧ n ≠ [46, 46])) := by
    have hput : put sep unc out (nameOf r) (!(tailOf r).isEmpty)
        = out ++ nameOf r ++ (if (!(tailOf r).isEmpty) = true then [sep] else []) := by
      unfold put
      cases hu : unc with
      | false => simp
      | true =>
        have := hout hu
        cases out with
        | nil => simp at this
        | cons a b => simp
    rcases hnames with h | ⟨hc, he, j, ps, h1, h2⟩
    · obtain ⟨h3, h4⟩ := h (nameOf r) (by rw [hnm]; simp)
      refine ⟨(stepL sep true eat unc (out, count) (nameOf r, !(tailOf r).isEmpty)).2, ?_, .inl fun n hn => h n (by rw [hnm]; exact List.mem_append_right _ hn)⟩
      · simp only [stepL, h3, h4, and_false, if_false, hput]
    · cases j with
      | zero =>
        simp only [List.replicate_zero, List.nil_append] at h1
        have h3 := h2 (nameOf r) (by rw [← h1, hnm]; simp)
        refine ⟨(stepL sep true eat unc (out, count) (nameOf r, !(tailOf r).isEmpty)).2, ?_, .inl fun n hn => h2 n (by rw [← h1, hnm]; exact List.mem_append_right _ hn)⟩
        · simp only [stepL, h3, and_false, if_false, hput]
      | succ j =>
        rw [hnm, List.replicate_succ] at h1
        simp only [List.cons_append, List.cons.injEq, List.nil_append] at h1
        refine ⟨0, ?_, .inr ⟨rfl, he, j, ps, h1.2, h2⟩⟩
        rw [← hput]
        simp [stepL, h1.1, hc, he]
  obtain ⟨count', e1, e2⟩ := hstep
  rw [hel, List.foldl_cons, e1]
  cases ht : tailOf r with
  | nil =>
    simp only [List.drop_nil, elems, List.foldl_nil]
    rw [ht, List.append_nil] at hsplit
    simp [← hsplit]
  | cons d l =>
    have hd : d = sep := hr.seps d (by rw [hsplit, ht]; simp) (tailOf_head ht)
    have hpl : Plain sep l := by
      have e : r = (nameOf r ++ [d]) ++ l := by rw [List.append_assoc, List.singleton_append, ← ht]; exact hsplit
      refine ⟨fun c hc hcs => hr.seps c (by rw [e]; simp [hc]) hcs, ?_, ?_⟩
      · have := hr.nodbl
        rw [e, NoDouble_append] at this
        exact this.2.1
      · have := hr.nodbl
        rw [e, NoDouble_append] at this
        cases l with
        | nil => rfl
        | cons x l =>
          cases hx : isSep x with
          | false => exact hx
          | true => exact absurd ⟨d, x, by simp, rfl, tailOf_head ht, hx⟩ this.2.2
    rw [ht] at e2
    simp only [List.drop_succ_cons, List.drop_zero] at e2 ⊢
    have hdec : l.length < r.length := by rw [ht] at hlt; simpa using hlt
    rw [fold_noop l hpl _ count' (by simp) e2]
    conv => rhs; rw [hsplit, ht]
    simp [hd]
termination_by r.length
decreasing_by exact hdec

end Clink.Path
