import Verif.Proof.Sticky
/-
Theorems about `history.sticky_search` (C64).

`line true hist init ks` is one line with the setting on, where `init` is the position left by the line before; it gives the line, whether it is
to be added to the history, and the position for the next line.
-/
namespace Clink.Sticky
open Spec

/-- `Up` some times and Enter: the entry, which is not added, and the position stays on it. -/
theorem C64_reuse (hist : List Text) (hne : [] ∉ hist) (k : Nat) (hk : 0 < k ∧ k ≤ hist.length) :
    ∃ l, hist[hist.length - k]? = some l ∧ line true hist none (ups k) = (l, false, some (hist.length - k)) := by
  obtain ⟨l, h1, h2, h3, h4, h5⟩ := ups_clean k (start_clean hist none) rfl (Nat.le_refl _) hk.2 hk.1
  have ho : (start hist none).off = hist.length := rfl
  rw [ho] at h1 h3
  refine ⟨l, h1, ?_⟩
  unfold line
  rw [enter_clean h5 (by rw [h3]; exact h1) h2 (fun e => hne (e ▸ List.mem_of_getElem? h1)), h3]

/-- From a position that was left, `Down` continues after it. -/
theorem C64_down (hist : List Text) (hne : [] ∉ hist) (p k : Nat) (hk : 0 < k) (hp : p + k < hist.length) :
    ∃ l, hist[p + k]? = some l ∧ line true hist (some p) (downs k) = (l, false, some (p + k)) := by
  have ho : (start hist (some p)).off = p := by
    show (if p > hist.length then hist.length else p) = p
    rw [if_neg (by omega)]
  obtain ⟨l, h1, h2, h3, h4, h5⟩ := downs_clean k (start_clean hist (some p)) (by rw [ho]; exact hp) hk
  rw [ho] at h1 h3
  refine ⟨l, h1, ?_⟩
  unfold line
  rw [enter_clean h5 (by rw [h3]; exact h1) h2 (fun e => hne (e ▸ List.mem_of_getElem? h1)), h3]

/-- From a position that was left, the first `Up` gives the entry there once more, and each further one the entry before. -/
theorem C64_up (hist : List Text) (hne : [] ∉ hist) (p k : Nat) (hp : p < hist.length) (hk : k ≤ p) :
    ∃ l, hist[p - k]? = some l ∧ line true hist (some p) (ups (k + 1)) = (l, false, some (p - k)) := by
  have ho : (start hist (some p)).off = p := by
    show (if p > hist.length then hist.length else p) = p
    rw [if_neg (by omega)]
  obtain ⟨l, hl⟩ : ∃ l, hist[p]? = some l := ⟨_, List.getElem?_eq_getElem hp⟩
  obtain ⟨a, b, c, d, f⟩ := up_clean (start_clean hist (some p)) (i := p) (by rw [ho]; rfl) (.inl rfl) hl
  have hf : (ups (k + 1)).foldl (key true) (start hist (some p)) = (ups k).foldl (key true) (up (start hist (some p))) := by
    unfold ups; rw [List.replicate_succ, List.foldl_cons]; rfl
  unfold line
  rw [hf]
  by_cases h0 : k = 0
  · subst h0
    refine ⟨l, hl, ?_⟩
    have he : (ups 0).foldl (key true) (up (start hist (some p))) = up (start hist (some p)) := rfl
    rw [he, enter_clean f (by rw [a]; exact hl) b (fun e => hne (e ▸ List.mem_of_getElem? hl)), a]
    rfl
  · obtain ⟨l', h1, h2, h3, h4, h5⟩ := ups_clean k f c (by rw [a]; omega) (by rw [a]; exact hk) (by omega)
    rw [a] at h1 h3
    exact ⟨l', h1, by rw [enter_clean h5 (by rw [h3]; exact h1) h2 (fun e => hne (e ▸ List.mem_of_getElem? h1)), h3]⟩

theorem downs_lines (hist : List Text) (hne : [] ∉ hist) (m : Nat) : ∀ p, p + m < hist.length →
    lines true hist (some p) (List.replicate m (downs 1)) = reused hist (p + 1) m := by
  induction m with
  | zero => intro p _; simp [lines, reused]
  | succ m ih =>
    intro p hp
    obtain ⟨l, h1, h2⟩ := C64_down hist hne p 1 (by omega) (by omega)
    rw [List.replicate_succ, lines, h2, ih (p + 1) (by omega)]
    have hlt : p + 1 < hist.length := by omega
    have hd : hist.drop (p + 1) = l :: hist.drop (p + 1 + 1) := by
      rw [List.drop_eq_getElem_cons hlt]
      rw [List.getElem?_eq_getElem hlt] at h1
      injection h1 with h1
      rw [h1]
    unfold reused
    rw [hd, List.take_succ_cons, List.map_cons]

/-- The promise in the documentation: `Up` many times, Enter, and then `Down`, Enter as often as wanted runs the entries in their order, and none
is added to the history. -/
theorem C64_replay (hist : List Text) (hne : [] ∉ hist) (k m : Nat) (hk : k ≤ hist.length) (hm : m < k) :
    lines true hist none (ups k :: List.replicate m (downs 1)) = reused hist (hist.length - k) (m + 1) := by
  obtain ⟨l, h1, h2⟩ := C64_reuse hist hne k ⟨by omega, hk⟩
  rw [lines, h2, downs_lines hist hne m _ (by omega)]
  have hlt : hist.length - k < hist.length := by omega
  have hd : hist.drop (hist.length - k) = l :: hist.drop (hist.length - k + 1) := by
    rw [List.drop_eq_getElem_cons hlt]
    rw [List.getElem?_eq_getElem hlt] at h1
    injection h1 with h1
    rw [h1]
  unfold reused
  rw [hd, List.take_succ_cons, List.map_cons]

/-- Without the setting every line is to be added. -/
theorem C64_off (hist : List Text) (init : Option Nat) (ks : List Key) : (line false hist init ks).2 = (true, none) := by
  unfold line enter canAdd
  simp

/-- Whatever is typed and whichever entries are looked at (without going up from the first entry), a line that is not added is the entry at the
position that is left, so that nothing new is lost. -/
theorem C64_kept (hist : List Text) (init : Option Nat) (ks : List Key) (hk : ks.count .up ≤ (start hist init).off)
    (h : (line true hist init ks).2.1 = false) :
    ∃ p, (line true hist init ks).2.2 = some p ∧ hist[p]? = some (line true hist init ks).1 := by
  have hi := inv_keys ks (inv_start hist init) hk
  have hkp := kept_keys ks (kept_start hist init)
  unfold line at h ⊢
  generalize ks.foldl (key true) (start hist init) = e at hi hkp h ⊢
  unfold enter at h ⊢
  simp only at h ⊢
  by_cases hc : e.buf ≠ [] ∧ canAdd true (teardown e) (save true e) e.buf = false
  · rw [if_pos hc]
    simp only [Bool.false_eq_true, if_false]
    have hcan := hc.2
    unfold canAdd at hcan
    rw [if_pos rfl] at hcan
    cases hs : save true e with
    | none => rw [hs] at hcan; cases hcan
    | some p =>
      rw [hs] at hcan
      simp only at hcan
      refine ⟨p, rfl, ?_⟩
      cases hg : (teardown e)[p]? with
      | none => rw [hg] at hcan; cases hcan
      | some r =>
        obtain ⟨l, d⟩ := r
        rw [hg] at hcan
        have hl : l = e.buf := by simpa using hcan
        subst hl
        unfold save at hs
        rw [if_pos rfl] at hs
        by_cases ho : e.off < e.mem.length
        · rw [if_pos ho] at hs
          injection hs with hs
          subst hs
          have hlt : e.off < hist.length := by rw [← hi.len]; exact ho
          obtain ⟨d', hd'⟩ := teardown_get hi (List.getElem?_eq_getElem hlt)
          rw [hg] at hd'
          injection hd' with hd'
          injection hd' with h1 _
          rw [List.getElem?_eq_getElem hlt, h1]
        · rw [if_neg ho] at hs
          obtain ⟨hcl, _⟩ := hkp (by rw [hs]; rfl)
          have ht : teardown e = e.mem := by
            unfold teardown; rw [hcl.2]
            cases e.mem[e.off]? <;> rfl
          rw [ht, hcl.1, List.getElem?_map] at hg
          cases hh : hist[p]? with
          | none => rw [hh] at hg; cases hg
          | some x => rw [hh] at hg; injection hg with hg; injection hg with h1 _; rw [h1]
  · rw [if_neg hc] at h
    cases h

/-- Looking at entries in any order without changing them: the line is empty, or it is the entry at the position that is left and it is not added.
This holds unless the first key after a position was left is `Down`. -/
theorem C64_browse (hist : List Text) (hne : [] ∉ hist) (init : Option Nat) (ks : List Key) (hk : ∀ k ∈ ks, k = .up ∨ k = .down)
    (h : init = none ∨ ks.head? = some .up) : (line true hist init ks).1 = [] ∨
    ∃ p l, hist[p]? = some l ∧ line true hist init ks = (l, false, some p) := by
  have hb : Browse hist (ks.foldl (key true) (start hist init)) := by
    have h0 : Browse hist (start hist init) := by
      refine ⟨start_clean hist init, (inv_start hist init).off, .inr ⟨rfl, .inl rfl, ?_⟩⟩
      cases init with
      | none => exact .inl rfl
      | some p => exact .inr rfl
    rcases h with rfl | h
    · exact browse_keys ks h0 rfl hk
    · cases ks with
      | nil => cases h
      | cons k ks =>
        injection h with h
        subst h
        rw [List.foldl_cons]
        obtain ⟨a, b⟩ := browse_up h0
        exact browse_keys ks a b (fun k' h' => hk k' (List.mem_cons_of_mem _ h'))
  unfold line
  generalize ks.foldl (key true) (start hist init) = e at hb ⊢
  rcases hb.line with ⟨h1, _, _⟩ | ⟨h1, _, _⟩
  · right
    refine ⟨e.off, e.buf, h1, enter_clean hb.clean h1 rfl (fun hh => hne (hh ▸ List.mem_of_getElem? h1))⟩
  · exact .inl h1

/-! ### Concrete lines -/

/-- A history of three lines. -/
def hist0 : List Text := [[97], [98], [99]]

example : [] ∉ hist0 := by decide
example : lines true hist0 none [[.up, .up, .up], [.down], [.down]] = [([97], false), ([98], false), ([99], false)] := by decide +kernel
example : line true hist0 (some 1) [.up] = ([98], false, some 1) := by decide +kernel
example : line true hist0 (some 1) [.up, .up] = ([97], false, some 0) := by decide +kernel
/-- A changed entry is added. -/
example : line true hist0 none [.up, .up, .type [98, 98]] = ([98, 98], true, none) := by decide +kernel
/-- An entry that was changed and changed back is not. -/
example : line true hist0 none [.up, .type [99, 99], .type [99]] = ([99], false, some 2) := by decide +kernel
example : [Key.up, .type [99, 99], .type [99]].count .up ≤ (start hist0 none).off := by decide
/-- A new line after a position was left is added. -/
example : line true hist0 (some 1) [.type [100]] = ([100], true, none) := by decide +kernel

/-! ### What does not hold -/

/-- Going up from the first entry after changing it: the changed line is taken for the entry, is not added, and so is lost. -/
theorem C64_lost_violated : line true hist0 none [.up, .up, .up, .type [97, 98], .up] = ([97, 98], false, some 0) ∧ [97, 98] ∉ hist0 := by
  decide +kernel

/-- After a position was left: `Down` and `Up` save the entry as if it were the line being written, so that it appears below the last entry instead
of an empty line, and there it is added although it was only reused. -/
theorem C64_browse_violated : line true hist0 (some 0) [.down, .up, .down, .down, .down] = ([98], true, none) ∧ [98] ∈ hist0 := by decide +kernel

end Clink.Sticky
