import Verif.Model.HistDb
import Verif.Spec.HistDb
import Verif.Props.HistFile

namespace Clink.Hist

open Spec

/-! Numbers. -/

theorem value_append (w : List Nat) (c : Nat) : value (w ++ [c]) = value w * 10 + (c - 48) := by simp [value]

theorem digits_length {n k : Nat} (hk : 0 < k) (h : n < 10 ^ k) : (digits n).length ≤ k := by
  induction k generalizing n with
  | zero => omega
  | succ k ih =>
    rw [digits]
    split
    · simp
    · have hk0 : 0 < k := by
        apply Nat.pos_of_ne_zero
        rintro rfl
        simp at h; omega
      have := ih (n := n / 10) hk0 (by rw [Nat.div_lt_iff_lt_mul (by decide)]; rw [Nat.pow_succ] at h; exact h)
      simp; omega

theorem digits_value (n : Nat) : digits n ≠ [] ∧ (∀ c ∈ digits n, 48 ≤ c ∧ c ≤ 57) ∧ value (digits n) = n := by
  induction n using Nat.strongRecOn with
  | _ n ih =>
    rw [digits]
    split
    · exact ⟨by simp, by intro c hc; simp at hc; omega, by simp [value]⟩
    · obtain ⟨h1, h2, h3⟩ := ih (n / 10) (by omega)
      refine ⟨by simp, ?_, ?_⟩
      · intro c hc
        rcases List.mem_append.1 hc with hc | hc
        · exact h2 c hc
        · simp at hc; omega
      · rw [value_append, h3]; omega

theorem digits_number {n : Nat} (h : n < 10 ^ 10) : IsNumber (digits n) :=
  ⟨(digits_value n).1, (digits_value n).2.1, digits_length (by decide) h⟩

theorem value_bound (w : List Nat) (n : Nat) (h : ∀ c ∈ w, 48 ≤ c ∧ c ≤ 57) : w.foldl (fun n c => n * 10 + (c - 48)) n < (n + 1) * 10 ^ w.length := by
  induction w generalizing n with
  | nil => simp
  | cons c w ih =>
    obtain ⟨h1, h2⟩ := h c (by simp)
    have := ih (n * 10 + (c - 48)) (fun d hd => h d (by simp [hd]))
    rw [List.foldl_cons, List.length_cons, Nat.pow_succ]
    refine Nat.lt_of_lt_of_le this ?_
    calc (n * 10 + (c - 48) + 1) * 10 ^ w.length ≤ ((n + 1) * 10) * 10 ^ w.length := Nat.mul_le_mul_right _ (by omega)
      _ = (n + 1) * (10 ^ w.length * 10) := by rw [Nat.mul_assoc, Nat.mul_comm 10]

theorem parseOffset_mono (w : List Nat) (n : Nat) (h : ∀ c ∈ w, 48 ≤ c ∧ c ≤ 57) (hb : w.foldl (fun n c => n * 10 + (c - 48)) n < 2 ^ 64) :
    parseOffset n w = w.foldl (fun n c => n * 10 + (c - 48)) n := by
  induction w generalizing n with
  | nil => rfl
  | cons c w ih =>
    obtain ⟨h1, h2⟩ := h c (by simp)
    have hle : ∀ (w : List Nat) m, m ≤ w.foldl (fun n c => n * 10 + (c - 48)) m := by
      intro w
      induction w with
      | nil => intro m; simp
      | cons c w ih => intro m; have := ih (m * 10 + (c - 48)); simp only [List.foldl_cons]; omega
    rw [List.foldl_cons] at hb ⊢
    have := hle w (n * 10 + (c - 48))
    rw [parseOffset, if_neg (by omega), Nat.mod_eq_of_lt (by omega)]
    exact ih _ (fun d hd => h d (by simp [hd])) hb

theorem parse_number {w : List Nat} (h : IsNumber w) : parseOffset 0 w = value w := by
  obtain ⟨h1, h2, h3⟩ := h
  have hb := value_bound w 0 h2
  have : 10 ^ w.length ≤ 10 ^ 10 := Nat.pow_le_pow_right (by decide) h3
  exact parseOffset_mono w 0 h2 (by omega)

/-! Files of lines. -/

theorem break10 : IsBreak 10 := by simp [IsBreak]

theorem complete_append {f g : List Nat} (hf : Complete f) (hg : Complete g) : Complete (f ++ g) := by
  intro c h
  rw [List.getLast?_append] at h
  cases hgl : g.getLast? with
  | none => rw [hgl] at h; exact hf c (by simpa using h)
  | some x => rw [hgl] at h; simp at h; exact hg c (by rw [hgl, h])

theorem complete_line (w : List Nat) : Complete (w ++ [10]) := by
  intro c h
  rw [List.getLast?_append] at h
  simp at h
  rw [← h]; exact break10

theorem fits_append {n : Nat} {f g : List Nat} (hc : Complete f) (hf : Fits n f) (hg : Fits n g) : Fits n (f ++ g) := by
  rintro w ⟨u, v, h⟩ hw
  rw [List.append_assoc] at h
  rcases List.append_eq_append_iff.1 h with ⟨a, h1, h2⟩ | ⟨a, h1, h2⟩
  · rcases List.append_eq_append_iff.1 h2 with ⟨b, h3, h4⟩ | ⟨b, h3, h4⟩
    · exact hf w ⟨u, b, by rw [h1, h3]; simp⟩ hw
    · -- the end of f is in w
      by_cases ha : a = []
      · subst ha
        simp only [List.nil_append] at h3
        exact hg w ⟨[], v, by rw [h3, h4]; simp⟩ hw
      · exfalso
        have : f.getLast? = some (a.getLast ha) := by
          rw [h1, List.getLast?_append, List.getLast?_eq_some_getLast ha]; rfl
        exact hw _ (by rw [h3]; simp) (hc _ this)
  · exact hg w ⟨a, v, by rw [h2]; simp⟩ hw

theorem fits_line {n : Nat} {w : List Nat} (hn : w.length < n) : Fits n (w ++ [10]) := by
  rintro x ⟨u, v, h⟩ hx
  have hlen := congrArg List.length h
  simp at hlen
  by_cases hx' : x.length ≤ w.length
  · omega
  · exfalso
    have hu : u = [] := List.length_eq_zero_iff.1 (by omega)
    have hv : v = [] := List.length_eq_zero_iff.1 (by omega)
    subst hu hv
    simp at h
    exact hx 10 (by rw [h]; simp) break10

theorem fits_nil {n : Nat} (h : 0 < n) : Fits n [] := by
  intro w hw _
  have := hw.length_le
  rw [List.length_nil] at this; omega

theorem isFile_nil {n : Nat} (h : 0 < n) : IsFile n [] := ⟨by intro c h; simp at h, fits_nil h, by simp⟩

theorem isFile_append {n : Nat} {f g : List Nat} (hf : IsFile n f) (hg : IsFile n g) (h : (f ++ g).length ≤ 2 ^ 29 - 1) : IsFile n (f ++ g) :=
  ⟨complete_append hf.complete hg.complete, fits_append hf.complete hf.fits hg.fits, h⟩

theorem isFile_add {n : Nat} {f w : List Nat} (hf : IsFile n f) (hw : w.length < n) (h : (addLine f w).length ≤ 2 ^ 29 - 1) : IsFile n (addLine f w) := by
  rw [addLine, List.append_assoc] at *
  exact ⟨complete_append hf.complete (complete_line w), fits_append hf.complete hf.fits (fits_line hw), h⟩

theorem linesOf_append {f : List Nat} (hf : Complete f) (g : List Nat) : linesOf (f ++ g) = linesOf f ++ lines false f.length [] g := by
  rw [linesOf, lines_append false f 0 [] g hf (fun _ => rfl), Nat.zero_add]; rfl

theorem lines_shift (s : List Nat) : ∀ (b : Bool) (o k : Nat) (cur : List Nat), cur.length ≤ o → lines b (o + k) cur s = (lines b o cur s).map fun x => (x.1 + k, x.2) := by
  induction s with
  | nil =>
    intro b o k cur h
    rw [lines, lines]
    split
    · simp; omega
    · rfl
  | cons c r ih =>
    intro b o k cur h
    rw [lines, lines]
    split
    · have := ih b (o + 1) k [] (by simp)
      rw [show o + k + 1 = o + 1 + k by omega, this, List.map_append]
      congr 1
      split
      · rfl
      · simp; omega
    · have := ih b (o + 1) k (cur ++ [c]) (by simp; omega)
      rw [show o + k + 1 = o + 1 + k by omega, this]

theorem lines_one {w : List Nat} (hw : ∀ c ∈ w, ¬ IsBreak c) (hne : w ≠ []) (o : Nat) : lines false o [] (w ++ [10]) = [(o, w)] := by
  rw [lines_line hw hne break10, lines, if_pos break10]; simp [lines]

theorem linesOf_add {f w : List Nat} (hf : Complete f) (hw : ∀ c ∈ w, ¬ IsBreak c) (hne : w ≠ []) : linesOf (addLine f w) = linesOf f ++ [(f.length, w)] := by
  rw [addLine, List.append_assoc, linesOf_append hf, lines_one hw hne]

theorem linesOf_bound {f : List Nat} {x : Nat × List Nat} (h : x ∈ linesOf f) : x.1 + x.2.length < f.length := by
  obtain ⟨-, -, pre, b, post, h1, -, h3, -⟩ := (C30_lines f x.1 x.2).1 h
  rw [h1, h3]; simp

/-! Tags. -/

theorem takeWhile_stop {p : Nat → Bool} {w : List Nat} (hw : ∀ c ∈ w, p c = true) {b : Nat} (hb : p b = false) (r : List Nat) : (w ++ b :: r).takeWhile p = w := by
  induction w with
  | nil => simp [hb]
  | cons c w ih => rw [List.cons_append, List.takeWhile_cons, if_pos (hw c (by simp)), ih (fun d hd => hw d (by simp [hd]))]

theorem extract_tag {tag : List Nat} (h : IsTag tag) (rest : List Nat) {size : Nat} (hs : 51 ≤ size) : extractCtag size (tag ++ [10] ++ rest) = some tag := by
  obtain ⟨⟨r, hr⟩, h2, h3⟩ := h
  have hne : tag ≠ [] := by rw [hr]; simp
  obtain ⟨k, hk⟩ : ∃ k, k = min (List.take size (tag ++ [10] ++ rest)).length (size - 1) := ⟨_, rfl⟩
  have hkl : tag.length + 1 ≤ k := by rw [hk]; simp; omega
  have htake : (List.take size (tag ++ [10] ++ rest)).take k = tag ++ 10 :: (rest.take (k - (tag.length + 1))) := by
    rw [List.take_take, Nat.min_eq_left (by rw [hk]; omega), List.take_append, List.take_of_length_le (by simp; omega)]
    simp
  unfold extractCtag
  rw [if_neg (by intro h; have := congrArg List.length h; simp at this; omega)]
  simp only [← hk, htake]
  obtain ⟨t, ht⟩ : ∃ t, (tag ++ 10 :: rest.take (k - (tag.length + 1))).takeWhile (· != 0) = tag ++ 10 :: t := by
    refine ⟨(rest.take (k - (tag.length + 1))).takeWhile (· != 0), ?_⟩
    rw [List.takeWhile_append_of_pos (by intro c hc; have := h2 c hc; simp [IsBreak] at this; simp; omega)]
    simp
  rw [ht, if_neg (fun hn => hn ⟨r ++ 10 :: t, by rw [hr]; simp [ctagPrefix]⟩), if_pos (by simp)]
  rw [takeWhile_stop _ (by rfl)]
  intro c hc
  have := h2 c hc
  simp [IsBreak] at this
  simp; omega

theorem extract_none {f : List Nat} {c : Nat} (hc : c ≠ 124) (size : Nat) : f = [] ∨ (∃ r, f = c :: r) → extractCtag size f = none := by
  rintro (rfl | ⟨r, rfl⟩)
  · simp [extractCtag]
  · unfold extractCtag
    simp only
    split
    · rfl
    · rw [if_pos]
      rintro ⟨t, ht⟩
      cases size with
      | zero => simp [ctagPrefix] at ht
      | succ n =>
        rw [List.take_succ_cons] at ht
        obtain ⟨k, hk⟩ : ∃ k, k = min (c :: List.take n r).length (n + 1 - 1) := ⟨_, rfl⟩
        rw [← hk] at ht
        cases k with
        | zero => simp [ctagPrefix] at ht
        | succ k =>
          rw [List.take_succ_cons, List.takeWhile_cons] at ht
          split at ht
          · simp [ctagPrefix] at ht; omega
          · simp [ctagPrefix] at ht

/-! Removals. -/

theorem number_line {w : List Nat} (h : IsNumber w) : IsLine w := by
  obtain ⟨h1, h2, h3⟩ := h
  refine ⟨h1, fun c hc => ?_, ?_⟩
  · have := h2 c hc; simp [IsBreak]; omega
  · rintro ⟨t, rfl⟩
    have := h2 124 (by simp); omega

theorem lines_flatten {ws : List (List Nat)} (h : ∀ w ∈ ws, IsNumber w) : ∀ o, ∃ ls, lines false o [] (ws.map (· ++ [10])).flatten = ls ∧ ls.map (·.2) = ws := by
  induction ws with
  | nil => intro o; exact ⟨[], by simp [lines], rfl⟩
  | cons w ws ih =>
    intro o
    have hw := number_line (h w (by simp))
    obtain ⟨ls, h1, h2⟩ := ih (fun x hx => h x (by simp [hx])) (o + (w ++ [10]).length)
    refine ⟨(o, w) :: ls, ?_, by simp [h2]⟩
    rw [List.map_cons, List.flatten_cons, lines_append false (w ++ [10]) o [] _ (complete_line w) (fun _ => rfl), lines_one hw.2.1 hw.1, h1]
    rfl

theorem isFile_flatten {ws : List (List Nat)} (h : ∀ w ∈ ws, IsNumber w) : Complete (ws.map (· ++ [10])).flatten ∧ Fits 512 (ws.map (· ++ [10])).flatten := by
  induction ws with
  | nil => exact ⟨(isFile_nil (n := 512) (by decide)).complete, fits_nil (by decide)⟩
  | cons w ws ih =>
    obtain ⟨h1, h2⟩ := ih (fun x hx => h x (by simp [hx]))
    rw [List.map_cons, List.flatten_cons]
    have := (h w (by simp)).2.2
    exact ⟨complete_append (complete_line w) h1, fits_append (complete_line w) (fits_line (by omega)) h2⟩

/-- Offsets that are taken from a file of removals. -/
def good (os : List Nat) : List Nat := os.filter fun o => decide (0 < o ∧ o < maxOffset)

theorem forEach_match {tag os r target : List Nat} (ht : IsTag tag) (hr : IsRemovals tag os r) (hlen : r.length ≤ 2 ^ 29 - 1)
    (hx : extractCtag 512 target = some tag) : forEachRemoval target (some r) = some (.inr (good os)) := by
  obtain ⟨ws, h1, h2, h3⟩ := hr
  have he : extractCtag 512 r = some tag := by rw [h1]; exact extract_tag ht _ (by decide)
  have htl := ht.2.2
  have hc : Complete r := by rw [h1]; exact complete_append (complete_line tag) (isFile_flatten h3).1
  have hf : Fits 512 r := by rw [h1]; exact fits_append (complete_line tag) (fits_line (by omega)) (isFile_flatten h3).2
  obtain ⟨es, e1, -, e3⟩ := C30_read (List.replicate 512 0) r [] hlen hc (by rw [List.length_replicate]; exact hf)
  have hne : tag ≠ [] := by obtain ⟨x, hx⟩ := ht.1; rw [hx]; simp
  obtain ⟨ls, l1, l2⟩ := lines_flatten h3 (tag ++ [10]).length
  have hl : linesOf r = (0, tag) :: ls := by
    rw [h1, linesOf_append (complete_line tag), l1, linesOf, lines_one ht.2.1 hne]; rfl
  have hv : es.map (·.text) = ws := by
    have : es.map (·.text) = (visible [] (linesOf r)).map (·.2) := by rw [← e3, List.map_map]; rfl
    rw [this, hl, visible, List.filter_cons, if_neg (by
      have : IsDeleted tag := by obtain ⟨x, hx⟩ := ht.1; exact ⟨_, hx⟩
      simp [this]), ← l2]
    congr 1
    apply List.filter_eq_self.2
    intro x hx
    have : IsNumber x.2 := h3 _ (by rw [← l2]; exact List.mem_map_of_mem hx)
    simp [(number_line this).2.2]
  rw [forEachRemoval, hx, he]
  simp only [ne_eq, not_true_eq_false, if_false, e1, Option.map_some]
  congr 2
  rw [good]
  congr 1
  rw [← h2, ← hv, List.map_map]
  apply List.map_congr_left
  intro e he
  exact parse_number (h3 _ (by rw [← hv]; exact List.mem_map_of_mem he))

theorem forEach_mismatch {tag tag' os r target : List Nat} (ht : IsTag tag) (hr : IsRemovals tag os r)
    (hx : extractCtag 512 target = some tag') (hne : tag ≠ tag') : forEachRemoval target (some r) = some (.inl (-1)) := by
  obtain ⟨ws, h1, -, -⟩ := hr
  have he : extractCtag 512 r = some tag := by rw [h1]; exact extract_tag ht _ (by decide)
  rw [forEachRemoval, hx, he]
  simp only [Option.getD_some, ne_eq]
  rw [if_pos (fun h => hne h.symm)]

/-- Without a tag in the file of removals. -/
theorem forEach_untagged {ws : List (List Nat)} {tag target : List Nat} (h : ∀ w ∈ ws, IsNumber w) (ht : IsTag tag)
    (hx : extractCtag 512 target = some tag) : forEachRemoval target (some (ws.map (· ++ [10])).flatten) = some (.inl (-1)) := by
  have he : extractCtag 512 (ws.map (· ++ [10])).flatten = none := by
    cases ws with
    | nil => exact extract_none (c := 0) (by decide) _ (.inl rfl)
    | cons w ws =>
      obtain ⟨h1, h2, -⟩ := h w (by simp)
      obtain ⟨c, t, rfl⟩ := List.exists_cons_of_ne_nil h1
      exact extract_none (c := c) (by have := h2 c (by simp); omega) _ (.inr ⟨_, rfl⟩)
  rw [forEachRemoval, hx, he]
  simp only [Option.getD_some, Option.getD_none, ne_eq]
  rw [if_pos]
  obtain ⟨x, hx⟩ := ht.1
  rw [hx]; simp

/-! Overwriting the start of a line. -/

/-- A line at an offset, made invisible. -/
def bar (o : Nat) (x : Nat × List Nat) : Nat × List Nat := if x.1 = o then (o, 124 :: x.2.tail) else x

theorem overwrite_split (pre : List Nat) (c : Nat) (rest : List Nat) : overwrite (pre ++ c :: rest) pre.length [124] = pre ++ 124 :: rest := by
  simp [overwrite]

theorem linesOf_bar {f : List Nat} {o : Nat} {w : List Nat} (h : (o, w) ∈ linesOf f) :
    linesOf (overwrite f o [124]) = (linesOf f).map (bar o) ∧ (overwrite f o [124]).length = f.length ∧
      (Complete f → Complete (overwrite f o [124])) ∧ (∀ n, Fits n f → Fits n (overwrite f o [124])) := by
  obtain ⟨hne, hw, pre, b, post, h1, hb, ho, hpre⟩ := (C30_lines f o w).1 h
  obtain ⟨c, t, rfl⟩ := List.exists_cons_of_ne_nil hne
  have hbar : ¬ IsBreak 124 := by simp [IsBreak]
  have hov : overwrite f o [124] = pre ++ ((124 :: t) ++ b :: post) := by
    rw [h1, ho, List.append_assoc]; exact overwrite_split pre c (t ++ b :: post)
  have hf : f = pre ++ ((c :: t) ++ b :: post) := by rw [h1, List.append_assoc]
  have hw' : ∀ d ∈ 124 :: t, ¬ IsBreak d := by
    intro d hd
    rcases List.mem_cons.1 hd with rfl | hd
    · exact hbar
    · exact hw d (by simp [hd])
  refine ⟨?_, by rw [hov, hf]; simp, ?_, ?_⟩
  · rw [hov, hf, linesOf_append hpre, linesOf_append hpre, lines_line hw' (by simp) hb, lines_line hw (by simp) hb, List.map_append, List.map_cons]
    have e1 : (linesOf pre).map (bar o) = linesOf pre := by
      conv => rhs; rw [← List.map_id (linesOf pre)]
      apply List.map_congr_left
      intro x hx
      have := linesOf_bound hx
      rw [bar, if_neg (by omega)]; rfl
    have e2 : ∀ l, (lines false (pre.length + (t.length + 1)) [] l).map (bar o) = lines false (pre.length + (t.length + 1)) [] l := by
      intro l
      conv => rhs; rw [← List.map_id (lines false (pre.length + (t.length + 1)) [] l)]
      apply List.map_congr_left
      intro x hx
      have := (lines_sorted false l (pre.length + (t.length + 1)) [] (by simp)).2 x hx
      simp at this
      rw [bar, if_neg (by omega)]; rfl
    simp only [List.length_cons]
    rw [e1, e2]
    simp [bar, ho]
  · intro hc x hx
    apply hc x
    rw [hf]
    rw [hov] at hx
    rw [List.getLast?_append, List.getLast?_append] at hx ⊢
    simpa using hx
  · intro n hn x hx hxb
    have hlen : ∀ x, x <:+: pre ++ ((124 :: t) ++ b :: post) → (∀ c ∈ x, ¬ IsBreak c) → x.length < n := by
      intro x hx hxb
      have hp : Fits n pre := fun y hy => hn y (hy.trans ⟨[], (c :: t) ++ b :: post, by rw [hf]; simp⟩)
      have hr : Fits n (b :: post) := fun y hy => hn y (hy.trans ⟨pre ++ (c :: t), [], by rw [hf]; simp⟩)
      have hl : (c :: t).length < n := hn _ ⟨pre, b :: post, by rw [hf]; simp⟩ hw
      have hline : Fits n ((124 :: t) ++ [b]) := by
        rintro y ⟨u, v, hy⟩ hyb
        have hylen := congrArg List.length hy
        simp at hylen hl
        by_cases hy' : y.length ≤ t.length + 1
        · omega
        · exfalso
          have hu : u = [] := List.length_eq_zero_iff.1 (by omega)
          have hv : v = [] := List.length_eq_zero_iff.1 (by omega)
          subst hu hv
          simp at hy
          exact hyb b (by rw [hy]; simp) hb
      have hcl : Complete ((124 :: t) ++ [b]) := by
        intro z hz
        rw [List.getLast?_append] at hz
        simp at hz
        rw [← hz]; exact hb
      have hpost : Fits n post := fun y hy => hr y (hy.trans ⟨[b], [], by simp⟩)
      have : Fits n (pre ++ (((124 :: t) ++ [b]) ++ post)) := fits_append hpre hp (fits_append hcl hline hpost)
      exact this x (by simpa using hx) hxb
    exact hlen x (by rw [← hov]; exact hx) hxb

theorem visible_bar (rs : List Nat) (o : Nat) (ls : List (Nat × List Nat)) : visible rs (ls.map (bar o)) = (visible rs ls).filter fun x => decide (x.1 ≠ o) := by
  induction ls with
  | nil => rfl
  | cons x ls ih =>
    rw [List.map_cons, visible, List.filter_cons, visible, List.filter_cons]
    by_cases hx : x.1 = o
    · have : IsDeleted (bar o x).2 := by rw [bar, if_pos hx]; exact ⟨_, rfl⟩
      rw [if_neg (by simp [this])]
      split
      · rw [List.filter_cons, if_neg (by simp [hx])]; exact ih
      · exact ih
    · have : bar o x = x := by rw [bar, if_neg hx]
      rw [this]
      split
      · rw [List.filter_cons, if_pos (by simp [hx])]
        congr 1
      · exact ih

theorem visible_hide (rs : List Nat) (o : Nat) (ls : List (Nat × List Nat)) : visible (rs ++ [o]) ls = (visible rs ls).filter fun x => decide (x.1 ≠ o) := by
  rw [visible, visible, List.filter_filter]
  apply List.filter_congr
  intro x _
  by_cases h1 : x.1 = o <;> by_cases h2 : IsDeleted x.2 <;> by_cases h3 : x.1 ∈ rs <;> simp [h1, h2, h3]

end Clink.Hist
