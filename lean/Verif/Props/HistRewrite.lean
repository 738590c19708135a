import Verif.Proof.HistRewrite

/-! C35: compaction. -/

namespace Clink.Hist

open Spec

theorem lasts_map {α β γ : Type} [DecidableEq γ] (g : α → β) (key : β → γ) (l : List α) :
    lasts key (l.map g) = (lasts (fun x => key (g x)) l).map g := by
  induction l with
  | nil => rfl
  | cons x xs ih =>
    have : xs.map (fun x => key (g x)) = (xs.map g).map key := by simp
    simp only [List.map_cons, lasts, this]
    split
    · exact ih
    · simp [ih]

theorem kept_contents {master : List Nat} {es : List Entry} (limit : Nat) (uniq : Bool) (h : es.map view = stamped [] ([], none) (linesOf master)) :
    (kept limit uniq es).map (fun e => (e.text, e.stamp.text)) =
      if 0 < limit ∧ limit < (contents master).length then (if limit ≤ (distinct uniq master).length then newest limit (distinct uniq master) else [])
      else distinct uniq master := by
  have hc : contents master = es.map fun e => (e.text, e.stamp.text) := by
    rw [contents, ← h, List.map_map]; rfl
  have hd : distinct uniq master = (if uniq then lasts (·.text) es else es).map fun e => (e.text, e.stamp.text) := by
    rw [distinct, hc, lasts_map]
    split <;> rfl
  rw [hd, hc, List.length_map, List.length_map]
  simp only [kept]
  generalize (if uniq then lasts (·.text) es else es) = u
  by_cases h : 0 < limit ∧ limit < es.length
  · rw [if_pos h, if_pos h]
    by_cases h' : limit ≤ u.length
    · rw [if_pos h', if_pos h', newest_map]
    · rw [if_neg h', if_neg h']; rfl
  · rw [if_neg h, if_neg h]

theorem lasts_length {α β : Type} [DecidableEq β] (key : α → β) (l : List α) : (lasts key l).length ≤ l.length :=
  (lasts_sublist key l).length_le

/-- Compaction keeps the newest lines, and of equal lines the last if that was asked for; unless the limit is between the
number of different lines and the number of all lines. -/
theorem C35_keeps (junk master tag : List Nat) (limit : Nat) (uniq : Bool) (hf : IsFile junk.length master) (ht : IsTag tag) (htn : tag.length < junk.length)
    (hl : ¬ ((distinct uniq master).length < limit ∧ limit < (contents master).length)) :
    ∃ f remap, rewrite junk master limit uniq tag = some (f, remap) ∧ Complete f ∧ Fits junk.length f ∧
      contents f = if limit = 0 then distinct uniq master else newest limit (distinct uniq master) := by
  obtain ⟨es, f, remap, L, h1, h2, -, -, h5, h6, -, h8, -⟩ := rewrite_spec limit uniq hf ht htn
  refine ⟨f, remap, h2, h5, h6, ?_⟩
  rw [h8, kept_contents limit uniq h1]
  have hle : (distinct uniq master).length ≤ (contents master).length := by
    rw [distinct]; split
    · exact lasts_length _ _
    · exact Nat.le_refl _
  generalize distinct uniq master = u at *
  by_cases h0 : limit = 0
  · simp [h0]
  · rw [if_neg h0]
    by_cases h : limit < (contents master).length
    · rw [if_pos ⟨by omega, h⟩, if_pos (by omega)]
    · rw [if_neg (by omega), newest, Nat.sub_eq_zero_of_le (by omega), List.drop_zero]

/-- Without `uniq` there is no such limit. -/
theorem C35_newest (junk master tag : List Nat) (limit : Nat) (hf : IsFile junk.length master) (ht : IsTag tag) (htn : tag.length < junk.length) (hl : limit ≠ 0) :
    ∃ f remap, rewrite junk master limit false tag = some (f, remap) ∧ contents f = newest limit (contents master) := by
  obtain ⟨f, remap, h1, -, -, h2⟩ := C35_keeps junk master tag limit false hf ht htn (by simp [distinct]; omega)
  rw [if_neg hl] at h2
  exact ⟨f, remap, h1, h2⟩

/-- If the limit is between these two numbers, the whole history is lost. -/
theorem C35_lost (junk master tag : List Nat) (limit : Nat) (hf : IsFile junk.length master) (ht : IsTag tag) (htn : tag.length < junk.length)
    (h1 : (distinct true master).length < limit) (h2 : limit < (contents master).length) :
    ∃ f remap, rewrite junk master limit true tag = some (f, remap) ∧ contents f = [] := by
  obtain ⟨es, f, remap, L, g1, g2, -, -, -, -, -, g8, -⟩ := rewrite_spec limit true hf ht htn
  refine ⟨f, remap, g2, ?_⟩
  rw [g8, kept_contents limit true g1, if_pos ⟨by omega, h2⟩, if_neg (by omega)]

/-- The new file starts with the tag.  The lines after it are lines of the old file, in the same order; the map of offsets
has the old offset and the new offset of each of them, in that order, and nothing else. -/
theorem C35_remap (junk master tag : List Nat) (limit : Nat) (uniq : Bool) (hf : IsFile junk.length master) (ht : IsTag tag) (htn : tag.length < junk.length) :
    ∃ f remap old new, rewrite junk master limit uniq tag = some (f, remap) ∧
      (∃ body, f = tag ++ [10] ++ body) ∧ f.length ≤ master.length + (tag.length + 1) ∧
      List.Sublist old (linesOf master) ∧ linesOf f = (0, tag) :: new ∧
      old.map (·.2) = new.map (·.2) ∧ remap = (old.map (·.1)).zip (new.map (·.1)) := by
  obtain ⟨es, f, remap, L, g1, g2, g3, g4, g5, g6, g7, g8, g9, g10, g11, g12⟩ := rewrite_spec limit uniq hf ht htn
  refine ⟨f, remap, _, L, g2, g4, g7, g12, g3, g10.symm, ?_⟩
  rw [← g11, g9]
  exact List.zip_of_prod rfl rfl

/-- The distinct lines of a history are distinct, come from it in order, and none is missing. -/
theorem C35_distinct (f : List Nat) : ((distinct true f).map (·.1)).Nodup ∧ List.Sublist (distinct true f) (contents f) ∧
    ∀ x ∈ contents f, ∃ y ∈ distinct true f, y.1 = x.1 := by
  have hmem : ∀ l : List (List Nat × List Nat), ∀ x ∈ l, ∃ y ∈ lasts (·.1) l, y.1 = x.1 := by
    intro l
    induction l with
    | nil => simp
    | cons a l ih =>
      intro x hx
      rw [lasts]
      split
      · rename_i h
        rcases List.mem_cons.1 hx with rfl | hx
        · obtain ⟨z, hz, hz2⟩ := List.mem_map.1 h
          obtain ⟨y, hy, hy2⟩ := ih z hz
          exact ⟨y, hy, hy2.trans hz2⟩
        · exact ih x hx
      · rcases List.mem_cons.1 hx with rfl | hx
        · exact ⟨_, List.mem_cons_self, rfl⟩
        · obtain ⟨y, hy, hy2⟩ := ih x hx
          exact ⟨y, List.mem_cons_of_mem _ hy, hy2⟩
  have hnd : ∀ l : List (List Nat × List Nat), ((lasts (·.1) l).map (·.1)).Nodup := by
    intro l
    induction l with
    | nil => simp [lasts]
    | cons a l ih =>
      rw [lasts]
      split
      · exact ih
      · rename_i h
        rw [List.map_cons, List.nodup_cons]
        exact ⟨fun hm => h (((lasts_sublist (·.1) l).map (·.1)).subset hm), ih⟩
  exact ⟨hnd _, lasts_sublist _ _, hmem _⟩

/-- `|CTAG_1` -/
def tag1 : List Nat := [124, 67, 84, 65, 71, 95, 49]

/-- `|CTAG_2` -/
def tag2 : List Nat := [124, 67, 84, 65, 71, 95, 50]

example : IsTag tag2 := ⟨⟨[50], rfl⟩, by decide, by decide⟩

/-- `|CTAG_1`, `a`, `b`, `|` tab `time=5`, `a`. -/
def sample2 : List Nat := tag1 ++ [10, 97, 10, 98, 10, 124, 9, 116, 105, 109, 101, 61, 53, 10, 97, 10]

theorem sample2_file : IsFile 9 sample2 := by
  refine ⟨?_, ?_, by decide⟩
  · intro c h
    simp [sample2, tag1] at h
    simp [IsBreak, ← h]
  · apply fits_of_lines _ (by decide)
    intro k hk
    have : k ≤ 14 := by simp [sample2, tag1] at hk; omega
    have : ∀ k ≤ 14, ∃ c ∈ (sample2.drop k).take 9, IsBreak c := by decide +kernel
    exact this k ‹_›

/-- All lines; the newest two; the last of equal lines, where the limit is not between 2 and 3. -/
example : rewrite (List.replicate 9 0) sample2 0 false tag2 = some (tag2 ++ sample2.drop 7, [(8, 8), (10, 10), (12, 12), (21, 21)]) ∧
    rewrite (List.replicate 9 0) sample2 2 false tag2 = some (tag2 ++ 10 :: sample2.drop 10, [(10, 8), (12, 10), (21, 19)]) ∧
    rewrite (List.replicate 9 0) sample2 0 true tag2 = some (tag2 ++ 10 :: sample2.drop 10, [(10, 8), (12, 10), (21, 19)]) ∧
    rewrite (List.replicate 9 0) sample2 1 true tag2 = some (tag2 ++ 10 :: sample2.drop 12, [(12, 8), (21, 17)]) ∧
    contents sample2 = [([97], []), ([98], []), ([97], [53])] ∧ distinct true sample2 = [([98], []), ([97], [53])] := by
  refine ⟨?_, ?_, ?_, ?_, ?_, ?_⟩ <;> decide +kernel

/-- `a`, `a`, `a`, `b` with the limit 3: nothing is left. -/
theorem C35_lost_witness : rewrite (List.replicate 9 0) (tag1 ++ [10, 97, 10, 97, 10, 97, 10, 98, 10]) 3 true tag2 = some (tag2 ++ [10], []) := by
  decide +kernel

end Clink.Hist
