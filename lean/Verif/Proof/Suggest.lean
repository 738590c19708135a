import Verif.Spec.Suggest
import Verif.Proof.StrCompare
import Verif.Proof.Utf
/- Proofs for C52. -/
namespace Clink.Suggest
open Clink StrCompare Spec
open Clink.Utf (specUtf8 IsText)

/-! ### UTF-8 -/

theorem u8_nil : u8 [] = [] := rfl
theorem u8_cons (c : Nat) (l : List Nat) : u8 (c :: l) = specUtf8 c ++ u8 l := rfl
theorem u8_append (a b : List Nat) : u8 (a ++ b) = u8 a ++ u8 b := by simp [u8]

theorem u8_eq_nil {l : List Nat} : u8 l = [] ↔ l = [] := by
  cases l with
  | nil => simp [u8]
  | cons c l => simp [u8_cons, Utf.specUtf8_ne_nil]

theorem Spec.Txt.tail {c : Nat} {l : List Nat} (h : Txt (c :: l)) : Txt l := fun d hd => h d (List.mem_cons_of_mem _ hd)
theorem Spec.Txt.head {c : Nat} {l : List Nat} (h : Txt (c :: l)) : IsText c := h c (by simp)
theorem Spec.Txt.drop {l : List Nat} (h : Txt l) (n : Nat) : Txt (l.drop n) := fun c hc => h c (List.mem_of_mem_drop hc)
theorem Spec.Txt.take {l : List Nat} (h : Txt l) (n : Nat) : Txt (l.take n) := fun c hc => h c (List.mem_of_mem_take hc)
theorem Spec.Txt.append {a b : List Nat} (h : Txt a) (h' : Txt b) : Txt (a ++ b) := by
  intro c hc
  rcases List.mem_append.1 hc with x | x
  · exact h c x
  · exact h' c x

theorem next_u8 {c : Nat} (h : IsText c) (l : List Nat) : Utf.iter8.next (specUtf8 c ++ l) = (c, l) :=
  Utf.next8_spec c h.1 h.2.1 l
theorem peek_u8 {c : Nat} (h : IsText c) (l : List Nat) : Utf.iter8.peek (specUtf8 c ++ l) = c := by
  unfold Iter.peek; rw [next_u8 h]
theorem adv_u8 {c : Nat} (h : IsText c) (l : List Nat) : Utf.iter8.adv (specUtf8 c ++ l) = l := by
  unfold Iter.adv; rw [next_u8 h]

theorem more_u8 {l : List Nat} (h : Txt l) : Utf.more (u8 l) = true ↔ l ≠ [] := by
  cases l with
  | nil => simp [u8, Utf.more]
  | cons c l =>
    rw [u8_cons]
    simp [Utf.more_of_pos (Utf.specUtf8_ne_nil c) (Utf.specUtf8_pos c h.head.1)]

theorem len_take_drop (t : List Nat) (k : Nat) : (u8 (t.take k)).length + (u8 (t.drop k)).length = (u8 t).length := by
  rw [← List.length_append, ← u8_append, List.take_append_drop]

theorem take_u8 (t : List Nat) (k : Nat) : (u8 t).take (u8 (t.take k)).length = u8 (t.take k) := by
  conv => lhs; arg 2; rw [← List.take_append_drop k t, u8_append]
  rw [List.take_left]

theorem drop_u8 (t : List Nat) (k : Nat) : (u8 t).drop (u8 (t.take k)).length = u8 (t.drop k) := by
  conv => lhs; arg 2; rw [← List.take_append_drop k t, u8_append]
  rw [List.drop_left]

theorem len_mono (t : List Nat) {i j : Nat} (h : i ≤ j) : (u8 (t.take i)).length ≤ (u8 (t.take j)).length := by
  have := len_take_drop (t.take j) i
  rw [List.take_take, Nat.min_eq_left h] at this
  omega

theorem len_le (t : List Nat) (i : Nat) : (u8 (t.take i)).length ≤ (u8 t).length := by
  have := len_take_drop t i; omega

theorem len_pos {t : List Nat} (h : t ≠ []) : 0 < (u8 t).length := by
  rw [List.length_pos_iff]
  intro e
  exact h (u8_eq_nil.1 e)

theorem len_lt (t : List Nat) {i j : Nat} (h : i < j) (hj : j ≤ t.length) : (u8 (t.take i)).length < (u8 (t.take j)).length := by
  have := len_take_drop (t.take j) i
  rw [List.take_take, Nat.min_eq_left (by omega)] at this
  have : 0 < (u8 ((t.take j).drop i)).length := by
    apply len_pos
    intro e
    have := congrArg List.length e
    simp at this
    omega
  omega

theorem slice_u8 (t : List Nat) {k e : Nat} (h : k ≤ e) :
    ((u8 t).drop (u8 (t.take k)).length).take ((u8 (t.take e)).length - (u8 (t.take k)).length) = u8 ((t.take e).drop k) := by
  rw [drop_u8]
  have h1 := len_take_drop (t.take e) k
  rw [List.take_take, Nat.min_eq_left h] at h1
  have h2 : (u8 (t.take e)).length - (u8 (t.take k)).length = (u8 ((t.drop k).take (e - k))).length := by
    rw [← List.drop_take]; omega
  rw [h2, take_u8, List.drop_take]

/-! ### Classes -/

theorem cls_eq (cfg : Cfg) (c : Nat) : cls cfg c = canon cfg.lower (mode cfg) c := by
  unfold cls canon mode
  cases cfg.ignoreCase <;> simp

theorem unaccent_back (c : Nat) : unaccent c = 92 ↔ c = 92 := by
  constructor
  · intro h
    rcases unaccent_cases c with e | ⟨e, he, h1, h2⟩
    · rw [← e]; exact h
    · have := (table_vals e he).2.1; omega
  · intro h
    rcases unaccent_cases c with e | ⟨e, he, h1, h2⟩
    · rw [e]; exact h
    · have := (table_vals e he).2.2.2.1; omega

theorem cls_slash {cfg : Cfg} (hok : LowerOk cfg.lower) (c : Nat) : cls cfg c = 47 ↔ c = 47 := by
  unfold cls
  have : (if cfg.ignoreCase = true ∧ c ≤ 0xffff then cfg.lower c else c) = 47 ↔ c = 47 := by
    split
    · exact hok.slash c
    · exact Iff.rfl
  dsimp only
  split
  · rw [unaccent_slash, this]
  · exact this

theorem cls_back {cfg : Cfg} (hok : LowerOk cfg.lower) (c : Nat) : cls cfg c = 92 ↔ c = 92 := by
  unfold cls
  have : (if cfg.ignoreCase = true ∧ c ≤ 0xffff then cfg.lower c else c) = 92 ↔ c = 92 := by
    split
    · exact hok.back c
    · exact Iff.rfl
  dsimp only
  split
  · rw [unaccent_back, this]
  · exact this

theorem Spec.Plain.tail {c : Nat} {l : List Nat} (h : Plain (c :: l)) : Plain l := fun i => h (i + 1)

theorem Spec.Plain.head {d : Nat} {l : List Nat} (h : Plain (47 :: d :: l)) : d ≠ 47 ∧ d ≠ 92 := by
  have := h 0 rfl
  simpa using this

theorem Spec.Plain.drop {l : List Nat} (h : Plain l) (n : Nat) : Plain (l.drop n) := by
  intro i hi
  rw [List.getElem?_drop] at hi
  have := h (n + i) hi
  rw [List.getElem?_drop]
  exact this

/-- What continues plain text is plain. -/
theorem Spec.Plain.of_prefix {cfg : Cfg} (hok : LowerOk cfg.lower) {x s : List Nat} (h : Plain s)
    (hp : x.map (cls cfg) <+: s.map (cls cfg)) : Plain x := by
  obtain ⟨y, hy⟩ := hp
  have key : ∀ (i c : Nat), x[i]? = some c → ∃ d, s[i]? = some d ∧ cls cfg d = cls cfg c := by
    intro i c hc
    have h1 : (s.map (cls cfg))[i]? = some (cls cfg c) := by
      rw [← hy, List.getElem?_append_left]
      · simp [hc]
      · rw [List.length_map]; exact (List.getElem?_eq_some_iff.1 hc).1
    rw [List.getElem?_map] at h1
    cases hs : s[i]? with
    | none => rw [hs] at h1; simp at h1
    | some d => rw [hs] at h1; exact ⟨d, rfl, by simpa using h1⟩
  intro i hi
  obtain ⟨d, hd, hc⟩ := key i 47 hi
  have hd47 : d = 47 := (cls_slash hok d).1 (hc.trans ((cls_slash hok 47).2 rfl))
  subst hd47
  obtain ⟨h1, h2⟩ := h i hd
  constructor
  · intro e
    obtain ⟨d, hd, hc⟩ := key _ _ e
    have : d = 47 := (cls_slash hok d).1 (hc.trans ((cls_slash hok 47).2 rfl))
    subst this
    exact h1 hd
  · intro e
    obtain ⟨d, hd, hc⟩ := key _ _ e
    have : d = 92 := (cls_back hok d).1 (hc.trans ((cls_back hok 92).2 rfl))
    subst this
    exact h2 hd

/-! ### Comparison of plain texts -/

/-- Character by character. -/
def strip (cfg : Cfg) : List Nat → List Nat → List Nat × List Nat
  | c :: x, d :: y => if cls cfg c = cls cfg d then strip cfg x y else (c :: x, d :: y)
  | x, y => (x, y)

theorem skipSep_u8 {l : List Nat} (h : Txt l) (hh : ∀ c, l.head? = some c → isSep c = false) :
    skipSep Utf.iter8 (u8 l) = u8 l := by
  rw [skipSep]
  cases l with
  | nil => simp [u8, Iter.peek, Utf.iter8, Utf.next8, Utf.next8Loop, isSep]
  | cons c l =>
    have h1 : ¬ isSep (Utf.iter8.peek (u8 (c :: l))) = true := by
      rw [u8_cons, peek_u8 h.head, hh c rfl]; simp
    rw [dif_neg h1]

theorem Spec.Plain.next {l : List Nat} (h : Plain (47 :: l)) : ∀ c, l.head? = some c → isSep c = false := by
  intro c hc
  cases l with
  | nil => simp at hc
  | cons d l =>
    simp only [List.head?_cons, Option.some.injEq] at hc
    subst hc
    have := h.head
    unfold isSep
    simp [this.1, this.2]

theorem loop_u8 {cfg : Cfg} (hok : LowerOk cfg.lower) {x y : List Nat} (hx : Txt x) (hy : Txt y) (px : Plain x)
    (py : Plain y) : loop cfg.lower Utf.iter8 (mode cfg) (u8 x) (u8 y) = (u8 (strip cfg x y).1, u8 (strip cfg x y).2) := by
  induction x generalizing y with
  | nil =>
    rw [loop, dif_neg (by simp [u8, Iter.peek, Utf.iter8, Utf.next8, Utf.next8Loop])]
    simp [strip]
  | cons c x ih =>
    cases y with
    | nil =>
      rw [loop, dif_neg (by simp [u8, Iter.peek, Utf.iter8, Utf.next8, Utf.next8Loop])]
      simp [strip]
    | cons d y =>
      have hc := hx.head
      have hd := hy.head
      rw [loop, dif_pos (by
        rw [u8_cons, u8_cons, peek_u8 hc, peek_u8 hd]
        have := hc.1
        have := hd.1
        omega)]
      have e1 : Utf.iter8.peek (u8 (c :: x)) = c := peek_u8 hc _
      have e2 : Utf.iter8.peek (u8 (d :: y)) = d := peek_u8 hd _
      have e3 : Utf.iter8.adv (u8 (c :: x)) = u8 x := adv_u8 hc _
      have e4 : Utf.iter8.adv (u8 (d :: y)) = u8 y := adv_u8 hd _
      simp only [e1, e2, e3, e4]
      by_cases h : cls cfg c = cls cfg d
      · have hs : same (mode cfg) (fold cfg.lower (mode cfg) c) (fold cfg.lower (mode cfg) d) = true := by
          rw [same_iff, ← cls_eq, ← cls_eq]; exact h
        rw [if_pos hs]
        have hsl := slash_same cfg.lower (mode cfg) c d hs
        rw [← cls_eq, cls_slash hok] at hsl
        have hst : strip cfg (c :: x) (d :: y) = strip cfg x y := by rw [strip, if_pos h]
        rw [hst]
        generalize (if fold cfg.lower (mode cfg) c = fold cfg.lower (mode cfg) d then fold cfg.lower (mode cfg) c
          else normalizeAccent (fold cfg.lower (mode cfg) c)) = z at hsl ⊢
        split
        · rename_i h47
          have hc47 : c = 47 := hsl.1 h47
          have hd47 : d = 47 := (cls_slash hok d).1 (h ▸ (cls_slash hok c).2 hc47)
          subst hc47
          subst hd47
          rw [skipSep_u8 hx.tail px.next, skipSep_u8 hy.tail py.next]
          exact ih hx.tail hy.tail px.tail py.tail
        · exact ih hx.tail hy.tail px.tail py.tail
      · have hs : ¬ same (mode cfg) (fold cfg.lower (mode cfg) c) (fold cfg.lower (mode cfg) d) = true := by
          rw [same_iff, ← cls_eq, ← cls_eq]; exact h
        rw [if_neg hs]
        rw [strip, if_neg h]

theorem cmp_u8 {cfg : Cfg} (hok : LowerOk cfg.lower) {x y : List Nat} (hx : Txt x) (hy : Txt y) (px : Plain x)
    (py : Plain y) : cmp cfg (u8 x) (u8 y) = (u8 (strip cfg x y).1, u8 (strip cfg x y).2) := by
  unfold cmp strCompare
  rw [loop_u8 hok hx hy px py]
  dsimp only
  split <;> rfl

theorem strip_fits {cfg : Cfg} {x y : List Nat} (h : x.map (cls cfg) <+: y.map (cls cfg)) :
    strip cfg x y = ([], y.drop x.length) := by
  induction x generalizing y with
  | nil => cases y <;> simp [strip]
  | cons c x ih =>
    cases y with
    | nil => simp at h
    | cons d y =>
      simp only [List.map_cons, List.cons_prefix_cons] at h
      rw [strip, if_pos h.1, ih h.2]
      simp

theorem strip_not {cfg : Cfg} {x y : List Nat} (h : ¬ x.map (cls cfg) <+: y.map (cls cfg)) : (strip cfg x y).1 ≠ [] := by
  induction x generalizing y with
  | nil => simp at h
  | cons c x ih =>
    cases y with
    | nil => simp [strip]
    | cons d y =>
      rw [strip]
      split
      · rename_i hc
        apply ih
        intro hp
        exact h (by simp [hc, hp])
      · simp

theorem strip_txt {cfg : Cfg} {x y : List Nat} (h : Txt x) : Txt (strip cfg x y).1 := by
  induction x generalizing y with
  | nil => cases y <;> simp [strip, Txt]
  | cons c x ih =>
    cases y with
    | nil => simpa [strip] using h
    | cons d y =>
      rw [strip]
      split
      · exact ih h.tail
      · exact h

theorem cmp_fits {cfg : Cfg} (hok : LowerOk cfg.lower) {x y : List Nat} (hx : Txt x) (hy : Txt y) (py : Plain y)
    (h : x.map (cls cfg) <+: y.map (cls cfg)) : cmp cfg (u8 x) (u8 y) = ([], u8 (y.drop x.length)) := by
  rw [cmp_u8 hok hx hy (py.of_prefix hok h) py, strip_fits h]
  rfl

theorem cmp_not {cfg : Cfg} (hok : LowerOk cfg.lower) {x y : List Nat} (hx : Txt x) (hy : Txt y) (px : Plain x)
    (py : Plain y) (h : ¬ x.map (cls cfg) <+: y.map (cls cfg)) : Utf.more (cmp cfg (u8 x) (u8 y)).1 = true := by
  rw [cmp_u8 hok hx hy px py]
  exact (more_u8 (strip_txt hx)).2 (strip_not h)

end Clink.Suggest
