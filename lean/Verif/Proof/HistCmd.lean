import Verif.Model.HistCmd
import Verif.Spec.HistCmd

/-! Lemmas for C68. -/

namespace Clink.HistCmd

open Spec (Short Help Plain Reads Opt IsDigits value joined bytes lowered)

/-! Options -/

theorem flagLoop_iff (m n : Nat) (a f : Text) :
    flagLoop m n a f = true ↔ ∃ rest, f = a ++ rest ∧ (rest = [] ∨ m ≤ n + a.length) := by
  induction a generalizing n f with
  | nil =>
    cases f with
    | nil => simp [flagLoop]
    | cons c f => simp [flagLoop]
  | cons c a ih =>
    cases f with
    | nil => simp [flagLoop]
    | cons d f =>
      rw [flagLoop]
      by_cases h : c = d
      · subst h
        rw [if_pos rfl, ih]
        simp only [List.cons_append, List.cons.injEq, true_and, List.length_cons]
        constructor
        · rintro ⟨r, h1, h2⟩
          exact ⟨r, h1, h2.imp id (by omega)⟩
        · rintro ⟨r, h1, h2⟩
          exact ⟨r, h1, h2.imp id (by omega)⟩
      · rw [if_neg h]
        simp only [List.cons_append, List.cons.injEq]
        constructor
        · intro h; cases h
        · rintro ⟨_, ⟨h1, _⟩, _⟩; exact absurd h1.symm h

theorem isFlag_short (a : Text) (f : Text) (hf : 3 ≤ f.length) : isFlag a f 3 = true ↔ Short f a := by
  unfold isFlag Short
  rw [flagLoop_iff]
  constructor
  · rintro ⟨r, h1, h2⟩
    refine ⟨?_, r, h1⟩
    rcases h2 with rfl | h2
    · rw [h1] at hf; simpa using hf
    · omega
  · rintro ⟨h, r, h1⟩
    exact ⟨r, h1, .inr (by omega)⟩

theorem isFlag_exact (a : Text) (f : Text) (hf : f.length = 2) : isFlag a f = true ↔ a = f := by
  unfold isFlag
  rw [flagLoop_iff]
  constructor
  · rintro ⟨r, h1, h2⟩
    rcases h2 with rfl | h2
    · simpa using h1.symm
    · rw [h1] at hf; simp at hf; omega
  · rintro rfl
    exact ⟨[], by simp, .inl rfl⟩

theorem isHelp (a : Text) : (isFlag a (txt "--help") 3 || isFlag a (txt "-h") || isFlag a (txt "-?")) = true ↔ Help a := by
  rw [Bool.or_eq_true, Bool.or_eq_true, isFlag_short _ _ (by decide), isFlag_exact _ _ (by decide), isFlag_exact _ _ (by decide)]
  unfold Help
  rw [or_assoc]
  exact Iff.rfl

theorem short_third {f a : Text} (h : Short f a) : a[2]? = f[2]? := by
  obtain ⟨h1, r, rfl⟩ := h
  rw [List.getElem?_append_left (by omega)]

theorem notHelp {f a : Text} (h : Short f a) (h2 : f[2]? ≠ some 104) : ¬ Help a := by
  rintro (h3 | rfl | rfl)
  · exact h2 ((short_third h).symm.trans ((short_third h3).trans (by decide)))
  · exact absurd h.1 (by decide)
  · exact absurd h.1 (by decide)

theorem notFlag {f g a : Text} (h : Short f a) (hg : 3 ≤ g.length) (h2 : f[2]? ≠ g[2]?) : ¬ isFlag a g 3 = true := by
  rw [isFlag_short _ _ hg]
  intro h3
  exact h2 ((short_third h).symm.trans (short_third h3))

theorem isNo (g : String) {f a : Text} (h : Short f a) (hg : 3 ≤ (txt g).length) (h2 : f[2]? ≠ (txt g)[2]?) : ¬ isFlag a (txt g) 3 = true :=
  notFlag h hg h2

theorem isYes (g : String) {a : Text} (hg : 3 ≤ (txt g).length) (h : Short (txt g) a) : isFlag a (txt g) 3 = true :=
  (isFlag_short _ _ hg).2 h

theorem options_cons (e : Env) (f : Flags) (kept : List Text) (a : Text) (as : List Text) : options e f kept (a :: as) =
    if isFlag a (txt "--help") 3 || isFlag a (txt "-h") || isFlag a (txt "-?") then some .help
    else if isFlag a (txt "--bare") 3 then options e { f with bare := true } kept as
    else if isFlag a (txt "--diag") 3 then options e { f with diag := true } kept as
    else if isFlag a (txt "--unique") 3 then options e { f with uniq := true } kept as
    else if isFlag a (txt "--show-time") 3 then options e { f with showtime := some true } kept as
    else if isFlag a (txt "--no-show-time") 3 then options e { f with showtime := some false } kept as
    else if isFlag a (txt "--time-format") 3 then
      match as with
      | fmt :: as => (setFormat e { f with showtime := some true } (some fmt)).bind fun f => options e f kept as
      | [] =>
        (setFormat e { f with showtime := some true } none).map fun f =>
          if kept = [] then .gone f else .args f kept.dropLast
    else options e f (kept ++ [a]) as := by
  rw [options.eq_def]
  rfl

/-- The flags after an option. -/
def after (e : Env) (f : Flags) : Opt → Flags
  | .bare => { f with bare := true }
  | .diag => { f with diag := true }
  | .unique => { f with uniq := true }
  | .showTime => { f with showtime := some true }
  | .noShowTime => { f with showtime := some false }
  | .timeFormat t => { f with showtime := some true, format := some (if e.console then t else f.format.getD [] ++ e.plain t) }

theorem options_opt (e : Env) (f : Flags) (kept : List Text) (a : Text) (as : List Text) (o : Opt) (ho : ∀ t, o ≠ .timeFormat t)
    (h : Short o.name a) : options e f kept (a :: as) = options e (after e f o) kept as := by
  have hh : ¬ (isFlag a (txt "--help") 3 || isFlag a (txt "-h") || isFlag a (txt "-?")) = true := by
    rw [isHelp]
    refine notHelp h ?_
    cases o <;> first | decide | exact absurd rfl (ho _)
  rw [options_cons, if_neg hh]
  cases o with
  | timeFormat t => exact absurd rfl (ho t)
  | bare =>
    rw [if_pos (isYes "--bare" (by decide) h)]; rfl
  | diag =>
    rw [if_neg (isNo "--bare" h (by decide) (by decide)), if_pos (isYes "--diag" (by decide) h)]; rfl
  | unique =>
    rw [if_neg (isNo "--bare" h (by decide) (by decide)), if_neg (isNo "--diag" h (by decide) (by decide)),
      if_pos (isYes "--unique" (by decide) h)]; rfl
  | showTime =>
    rw [if_neg (isNo "--bare" h (by decide) (by decide)), if_neg (isNo "--diag" h (by decide) (by decide)),
      if_neg (isNo "--unique" h (by decide) (by decide)), if_pos (isYes "--show-time" (by decide) h)]; rfl
  | noShowTime =>
    rw [if_neg (isNo "--bare" h (by decide) (by decide)), if_neg (isNo "--diag" h (by decide) (by decide)),
      if_neg (isNo "--unique" h (by decide) (by decide)), if_neg (isNo "--show-time" h (by decide) (by decide)),
      if_pos (isYes "--no-show-time" (by decide) h)]; rfl

theorem options_time (e : Env) (f : Flags) (kept : List Text) (a : Text) (as : List Text) (h : Short (bytes "--time-format") a) :
    options e f kept (a :: as) = match as with
      | fmt :: as => options e (after e f (.timeFormat fmt)) kept as
      | [] => (setFormat e { f with showtime := some true } none).map fun f => if kept = [] then .gone f else .args f kept.dropLast := by
  have hh : ¬ (isFlag a (txt "--help") 3 || isFlag a (txt "-h") || isFlag a (txt "-?")) = true := by
    rw [isHelp]
    exact notHelp h (by decide)
  rw [options_cons, if_neg hh, if_neg (isNo "--bare" h (by decide) (by decide)), if_neg (isNo "--diag" h (by decide) (by decide)),
      if_neg (isNo "--unique" h (by decide) (by decide)), if_neg (isNo "--show-time" h (by decide) (by decide)), if_neg (isNo "--no-show-time" h (by decide) (by decide)),
      if_pos (isYes "--time-format" (by decide) h)]
  cases as with
  | nil => rfl
  | cons t as =>
    simp only [setFormat, after]
    split <;> rename_i hc <;> simp

theorem options_plain (e : Env) (f : Flags) (kept : List Text) (a : Text) (as : List Text) (h : Plain a) :
    options e f kept (a :: as) = options e f (kept ++ [a]) as := by
  have hh : ¬ (isFlag a (txt "--help") 3 || isFlag a (txt "-h") || isFlag a (txt "-?")) = true := by
    rw [isHelp]; exact h.1
  have k : ∀ o : Opt, ¬ isFlag a o.name 3 = true := fun o => by
    rw [isFlag_short _ _ (by cases o <;> simp [Opt.name, bytes])]; exact h.2 o
  have k1 : ¬ isFlag a (txt "--bare") 3 = true := k .bare
  have k2 : ¬ isFlag a (txt "--diag") 3 = true := k .diag
  have k3 : ¬ isFlag a (txt "--unique") 3 = true := k .unique
  have k4 : ¬ isFlag a (txt "--show-time") 3 = true := k .showTime
  have k5 : ¬ isFlag a (txt "--no-show-time") 3 = true := k .noShowTime
  have k6 : ¬ isFlag a (txt "--time-format") 3 = true := k (.timeFormat [])
  rw [options_cons, if_neg hh, if_neg k1, if_neg k2, if_neg k3, if_neg k4, if_neg k5, if_neg k6]

theorem options_help (e : Env) (f : Flags) (kept : List Text) (a : Text) (as : List Text) (h : Help a) :
    options e f kept (a :: as) = some .help := by
  rw [options_cons, if_pos ((isHelp a).2 h)]

theorem options_reads (e : Env) (args : List Text) (os : List Opt) (ws : List Text) (h : Reads args os ws) (f : Flags)
    (kept more : List Text) : options e f kept (args ++ more) = options e (os.foldl (after e) f) (kept ++ ws) more := by
  induction h generalizing f kept with
  | nil => simp
  | opt o ho hs _ ih => rw [List.cons_append, options_opt e f kept _ _ o ho hs, ih]; rfl
  | format t hs _ ih => rw [List.cons_append, List.cons_append, options_time e f kept _ _ hs]; simp only; rw [ih]; rfl
  | word hp _ ih => rw [List.cons_append, options_plain e f kept _ _ hp, ih]; simp

/-! The flags -/

theorem flags_bare (e : Env) (os : List Opt) (f : Flags) : (os.foldl (after e) f).bare = (f.bare || os.contains .bare) := by
  induction os generalizing f with
  | nil => simp
  | cons o os ih => rw [List.foldl_cons, ih]; cases o <;> simp [after, List.contains_cons]

theorem flags_uniq (e : Env) (os : List Opt) (f : Flags) : (os.foldl (after e) f).uniq = (f.uniq || os.contains .unique) := by
  induction os generalizing f with
  | nil => simp
  | cons o os ih => rw [List.foldl_cons, ih]; cases o <;> simp [after, List.contains_cons]

theorem flags_diag (e : Env) (os : List Opt) (f : Flags) : (os.foldl (after e) f).diag = (f.diag || os.contains .diag) := by
  induction os generalizing f with
  | nil => simp
  | cons o os ih => rw [List.foldl_cons, ih]; cases o <;> simp [after, List.contains_cons]

theorem flags_show (e : Env) (os : List Opt) (f : Flags) :
    (os.foldl (after e) f).showtime =
      os.foldl (fun r o => match o with | .showTime => some true | .timeFormat _ => some true | .noShowTime => some false | _ => r) f.showtime := by
  induction os generalizing f with
  | nil => rfl
  | cons o os ih => rw [List.foldl_cons, ih]; cases o <;> rfl

theorem flags_format (e : Env) (hc : e.console = true) (os : List Opt) (f : Flags) :
    (os.foldl (after e) f).format = os.foldl (fun r o => match o with | .timeFormat t => some t | _ => r) f.format := by
  induction os generalizing f with
  | nil => rfl
  | cons o os ih =>
    rw [List.foldl_cons, ih]
    cases o <;> simp [after, hc]

theorem flags_format_none (e : Env) (os : List Opt) (h : ∀ o ∈ os, ∀ t, o ≠ .timeFormat t) (f : Flags) :
    (os.foldl (after e) f).format = f.format := by
  induction os generalizing f with
  | nil => rfl
  | cons o os ih =>
    rw [List.foldl_cons, ih (fun o ho => h o (by simp [ho]))]
    cases o with
    | timeFormat t => exact absurd rfl (h _ (by simp) t)
    | _ => rfl

/-! Words -/

theorem join_cons (a : Text) (as : List Text) : [32].intercalate (a :: as) = if as = [] then a else a ++ 32 :: [32].intercalate as := by
  cases as with
  | nil => simp [List.intercalate, List.intersperse]
  | cons b bs => simp [List.intercalate, List.intersperse]

theorem getLine_ne (out : Text) (h : out ≠ []) (as : List Text) : getLine out as = [32].intercalate (out :: as) := by
  induction as generalizing out with
  | nil => simp [getLine, List.intercalate, List.intersperse]
  | cons a as ih =>
    have hC : ¬ (a :: as = []) := by simp
    rw [getLine, if_pos h, ih _ (by simp), join_cons, join_cons out, if_neg hC, join_cons a]
    by_cases has : as = []
    · simp [has]
    · rw [if_neg has, if_neg has]; simp

theorem getLine_eq (as : List Text) : getLine [] as = joined as := by
  unfold joined
  induction as with
  | nil => rfl
  | cons a as ih =>
    rw [getLine]
    simp only [ne_eq, not_true_eq_false, if_false, List.nil_append]
    by_cases ha : a = []
    · subst ha
      rw [List.dropWhile_cons_of_pos (by simp)]
      exact ih
    · rw [List.dropWhile_cons_of_neg (by simpa using ha)]
      exact getLine_ne a ha as

theorem digitsOf_eq (t : Text) (h : ∀ c ∈ t, 48 ≤ c ∧ c ≤ 57) (n : Nat) :
    digitsOf n t = t.foldl (fun n c => n * 10 + (c - 48)) n := by
  induction t generalizing n with
  | nil => rfl
  | cons c t ih =>
    rw [digitsOf, if_pos (h c (by simp)), ih (fun c hc => h c (by simp [hc]))]; rfl

theorem clampInt_eq (n : Int) (h1 : -2147483648 < n) (h2 : n < 2147483648) : clampInt n = n := by
  unfold clampInt; omega

theorem isBlank_digit {c : Nat} (h : 48 ≤ c ∧ c ≤ 57) : ¬ isBlank c = true := by
  simp only [isBlank, Bool.or_eq_true, Bool.and_eq_true, decide_eq_true_eq, beq_iff_eq]; omega

theorem atoi_digits (t : Text) (h : IsDigits t) (hv : value t < 2147483648) : atoi t = value t := by
  obtain ⟨hne, hd⟩ := h
  match t, hne, hd, hv with
  | c :: t, _, hd, hv =>
    have h1 := hd c (by simp)
    unfold atoi
    rw [List.dropWhile_cons_of_neg (isBlank_digit h1)]
    have h45 : ¬ c = 45 := by omega
    have h43 : ¬ c = 43 := by omega
    simp only []
    rw [if_neg h45, if_neg h43, digitsOf_eq _ hd]
    exact clampInt_eq _ (by unfold value at hv; omega) (by unfold value at hv; omega)

theorem atoi_minus (t : Text) (h : IsDigits t) (hv : value t < 2147483648) : atoi (45 :: t) = -(value t : Int) := by
  unfold atoi
  rw [List.dropWhile_cons_of_neg (by decide)]
  simp only []
  rw [if_pos trivial, digitsOf_eq _ h.2]
  exact clampInt_eq _ (by unfold value at hv; omega) (by unfold value at hv; omega)

theorem le_foldl (t : Text) (n : Nat) : n ≤ t.foldl (fun n c => n * 10 + (c - 48)) n := by
  induction t generalizing n with
  | nil => simp
  | cons c t ih => exact Nat.le_trans (by show n ≤ n * 10 + (c - 48); omega) (ih _)

theorem tailCount_eq (t : Text) (h : ∀ c ∈ t, 48 ≤ c ∧ c ≤ 57) (n : Nat)
    (hv : t.foldl (fun n c => n * 10 + (c - 48)) n < 4294967296) :
    tailCount n t = some (t.foldl (fun n c => n * 10 + (c - 48)) n) := by
  induction t generalizing n with
  | nil => rfl
  | cons c t ih =>
    have h1 := h c (by simp)
    have hC : ¬ (c < 48 ∨ c > 57) := by omega
    rw [List.foldl_cons] at hv ⊢
    have h2 := le_foldl t (n * 10 + (c - 48))
    rw [tailCount, if_neg hC, Nat.mod_eq_of_lt (by omega)]
    exact ih (fun c hc => h c (by simp [hc])) _ hv

theorem tailCount_none (t : Text) (h : ∃ c ∈ t, ¬ (48 ≤ c ∧ c ≤ 57)) (n : Nat) : tailCount n t = none := by
  induction t generalizing n with
  | nil => simp at h
  | cons c t ih =>
    rw [tailCount]
    by_cases hc : c < 48 ∨ c > 57
    · rw [if_pos hc]
    · rw [if_neg hc]
      refine ih ?_ _
      obtain ⟨d, hd, h1⟩ := h
      rcases List.mem_cons.1 hd with rfl | hd
      · omega
      · exact ⟨d, hd, h1⟩

theorem verbIs_iff (v : Text) (k : String) (hk : (txt k).map lower = bytes k) : verbIs v k = true ↔ lowered v = bytes k := by
  unfold verbIs
  rw [beq_iff_eq, hk]
  exact Iff.rfl

theorem verb_yes {v : Text} {k : String} (hk : (txt k).map lower = bytes k) (h : lowered v = bytes k) : verbIs v k = true :=
  (verbIs_iff v k hk).2 h

theorem verb_no {v : Text} {k : String} (hk : (txt k).map lower = bytes k) (h : lowered v ≠ bytes k) : ¬ verbIs v k = true :=
  fun e => h ((verbIs_iff v k hk).1 e)

theorem verb_other {v : Text} {k j : String} (hk : (txt k).map lower = bytes k) (h : lowered v = bytes j) (hj : bytes j ≠ bytes k) :
    ¬ verbIs v k = true := verb_no hk (by rw [h]; exact hj)

theorem firstOpt_no (v : Text) (ws : List Text) (h : v.head? ≠ some 45) : firstOpt (v :: ws) = some .no := by
  unfold firstOpt
  have hC : ¬ v = txt "--" := by rintro rfl; exact h (by decide)
  simp only []
  rw [if_neg hC]
  cases v with
  | nil => rfl
  | cons c v =>
    have : c ≠ 45 := fun e => h (by simp [e])
    split
    · rename_i h1; injection h1; contradiction
    · rename_i h1; injection h1; contradiction
    · rename_i h1; injection h1; contradiction
    · rfl

theorem head_of_lowered {v : Text} {k : String} (h : lowered v = bytes k) (hk : (bytes k).head? ≠ some 45) : v.head? ≠ some 45 := by
  intro h1
  cases v with
  | nil => simp at h1
  | cons c v =>
    simp only [List.head?_cons, Option.some.injEq] at h1
    subst h1
    rw [← h] at hk
    exact hk rfl

theorem head_of_digits {t : Text} (h : IsDigits t) : t.head? ≠ some 45 := by
  intro h1
  cases t with
  | nil => simp at h1
  | cons c v =>
    simp only [List.head?_cons, Option.some.injEq] at h1
    subst h1
    have := h.2 45 (by simp)
    omega

theorem lowered_digits {t : Text} (h : IsDigits t) : lowered t = t := by
  unfold lowered
  have : ∀ c ∈ t, (fun c => if 65 ≤ c ∧ c ≤ 90 then c + 32 else c) c = id c := by
    intro c hc
    have := h.2 c hc
    have hC : ¬ (65 ≤ c ∧ c ≤ 90) := by omega
    simp only [id]
    rw [if_neg hC]
  rw [List.map_congr_left this]; simp

theorem not_digits {k : String} (hk : ∃ c ∈ bytes k, ¬ (48 ≤ c ∧ c ≤ 57)) {t : Text} (h : IsDigits t) : lowered t ≠ bytes k := by
  rw [lowered_digits h]
  rintro rfl
  obtain ⟨c, hc, h1⟩ := hk
  exact h1 (h.2 c hc)

/-! Deleting and listing -/

theorem advance_eq (i : Nat) (l : List Nat) : advance i l = l.drop i := by
  induction i generalizing l with
  | zero => simp [advance]
  | succ i ih => cases l <;> simp [advance, ih]

theorem translate_eq (l : Text) : translate l = l.flatMap Spec.visible := by
  induction l with
  | nil => rfl
  | cons c l ih =>
    rw [translate, ih, List.flatMap_cons]
    unfold Spec.visible fine
    by_cases h : c < 32 ∧ c ≠ 9
    · have hC : ¬ (c ≥ 32 || c == 9) = true := by simp; omega
      rw [if_pos h, if_neg hC]
      have : (c + 65 - 1) % 256 = c + 64 := by omega
      rw [this]; rfl
    · have hC : (c ≥ 32 || c == 9) = true := by simp; omega
      rw [if_neg h, if_pos hC]; rfl

theorem value_snoc (t : Text) (c : Nat) : value (t ++ [c]) = value t * 10 + (c - 48) := by
  unfold value; rw [List.foldl_append]; rfl

theorem decimal_spec (k n : Nat) (h : n < k) :
    IsDigits (decimal k n) ∧ value (decimal k n) = n ∧ ((decimal k n).head? = some 48 → n = 0) := by
  induction k generalizing n with
  | zero => omega
  | succ k ih =>
    rw [decimal]
    by_cases hn : n < 10
    · rw [if_pos hn]
      refine ⟨⟨by simp, ?_⟩, by simp [value], ?_⟩
      · intro c hc
        simp at hc
        omega
      · intro h; simp at h; omega
    · rw [if_neg hn]
      obtain ⟨h1, h2, h3⟩ := ih (n / 10) (by omega)
      refine ⟨⟨by simp, ?_⟩, ?_, ?_⟩
      · intro c hc
        rcases List.mem_append.1 hc with hc | hc
        · exact h1.2 c hc
        · simp at hc; omega
      · rw [value_snoc, h2]; omega
      · intro h
        rw [List.head?_append, Option.or_of_isSome (by simpa using h1.1)] at h
        have := h3 h
        omega

theorem number_spec (n : Nat) : Spec.Numbered n (number n) := by
  obtain ⟨h1, h2, h3⟩ := decimal_spec (n + 1) n (by omega)
  exact ⟨_, _, rfl, h1, h2, h3, rfl⟩

theorem rows_length (t : Times) (bare console : Bool) (i : Nat) (l : List (Text × Text)) : (rows t bare console i l).length = l.length := by
  induction l generalizing i with
  | nil => rfl
  | cons a l ih => simp [rows, ih]

theorem rows_get (t : Times) (bare console : Bool) (i : Nat) (l : List (Text × Text)) (j : Nat) (x s : Text) (h : l[j]? = some (x, s)) :
    (rows t bare console i l)[j]? = some (row t bare console (i + j) x s) := by
  induction l generalizing i j with
  | nil => simp at h
  | cons a l ih =>
    obtain ⟨a, b⟩ := a
    cases j with
    | zero => simp at h; simp [rows, h]
    | succ j =>
      simp only [List.getElem?_cons_succ] at h
      simp only [rows, List.getElem?_cons_succ]
      rw [ih _ _ h]
      congr 2
      omega

end Clink.HistCmd
