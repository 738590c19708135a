import Verif.Spec.Glob
import Verif.Proof.Select
import Verif.Proof.AbbrevSafe

/-! Enumerating files. -/

namespace Clink.Glob

open Spec (Ask Has Wanted Called Name)
open StrCompare (isSep)

theorem has_iff (e : Entry) (k : Nat) : e.attr.testBit k = true ↔ Has e (2 ^ k) := by
  unfold Has
  rw [Nat.testBit_eq_decide_div_mod_eq]
  simp

/-- What a globber is asked for. -/
def askOf (g : G) : Ask := ⟨g.files, g.dirs, g.hidden, g.system, g.dots, g.older⟩

theorem again_iff (g : G) (e : Entry) : again g e = false ↔ Wanted (askOf g) e := by
  have h1 := has_iff e dirBit
  have h2 := has_iff e hiddenBit
  have h3 := has_iff e systemBit
  unfold again Wanted askOf
  simp only [dirBit, hiddenBit, systemBit, Nat.reducePow] at *
  rw [← h1, ← h2, ← h3]
  cases e.attr.testBit 4 <;> cases e.attr.testBit 1 <;> cases e.attr.testBit 2 <;> cases g.files <;> cases g.dirs <;> cases g.hidden <;>
    cases g.system <;> cases g.dots <;> cases g.older <;> simp

/-- Everything that is still to come. -/
def entries (g : G) : List Entry :=
  match g.cur with
  | none => []
  | some (e, r) => e :: r

/-- Only the position and the calls differ. -/
def Like (g g' : G) : Prop := askOf g' = askOf g ∧ g'.root = g.root ∧ g'.suffix = g.suffix

theorem Like.refl (g : G) : Like g g := ⟨rfl, rfl, rfl⟩
theorem Like.trans {a b c : G} (h : Like a b) (k : Like b c) : Like a c := ⟨k.1.trans h.1, k.2.1.trans h.2.1, k.2.2.trans h.2.2⟩

theorem again_like {g g' : G} (h : Like g g') (e : Entry) : again g' e = again g e := by
  rw [Bool.eq_iff_iff]
  have a := again_iff g e
  have b := again_iff g' e
  rw [h.1] at b
  rw [← Bool.not_eq_false, ← Bool.not_eq_false, b, a]

theorem nextFile_spec (g : G) (e : Entry) (r : List Entry) (h : g.cur = some (e, r)) : entries (nextFile g) = r ∧ Like g (nextFile g) := by
  unfold nextFile
  rw [h]
  cases r with
  | nil =>
    simp only [close, h]
    exact ⟨rfl, rfl, rfl, rfl⟩
  | cons x r => exact ⟨rfl, rfl, rfl, rfl⟩

theorem left_eq (g : G) : left g = (entries g).length := by
  unfold left entries
  cases g.cur <;> rfl

/-- The wanted ones among the rest. -/
def wanted (g : G) : List Entry := (entries g).filter fun e => !again g e

theorem skip_spec : ∀ (n : Nat) (g : G), (entries g).length < n →
    ∃ g', skip n g = some g' ∧ Like g g' ∧ wanted g' = wanted g ∧ entries g' <:+ entries g ∧ (∀ e r, g'.cur = some (e, r) → again g' e = false) := by
  intro n
  induction n with
  | zero => intro g h; omega
  | succ n ih =>
    intro g h
    unfold skip
    cases hc : g.cur with
    | none => exact ⟨g, rfl, Like.refl g, rfl, List.suffix_refl _, fun e r he => by rw [hc] at he; exact absurd he (by simp)⟩
    | some p =>
      obtain ⟨e, r⟩ := p
      simp only []
      cases ha : again g e with
      | false =>
        rw [if_neg (by simp)]
        refine ⟨g, rfl, Like.refl g, rfl, List.suffix_refl _, fun e' r' he => ?_⟩
        rw [hc] at he
        injection he with he
        injection he with he _
        rw [← he]; exact ha
      | true =>
        rw [if_pos rfl]
        obtain ⟨h1, h2⟩ := nextFile_spec g e r hc
        have hl : entries g = e :: r := by unfold entries; rw [hc]
        obtain ⟨g', e1, l1, w1, u1, s1⟩ := ih (nextFile g) (by rw [h1]; rw [hl] at h; simp at h; omega)
        refine ⟨g', e1, h2.trans l1, ?_, ?_, s1⟩
        rotate_left
        · rw [h1] at u1; rw [hl]; exact u1.trans (List.suffix_cons e r)
        rw [w1]
        unfold wanted
        rw [h1, hl, List.filter_cons, ha]
        simp only [Bool.not_true, Bool.false_eq_true, if_false]
        congr 1
        funext x
        rw [again_like h2]

variable {alpha : Nat → Bool}

/-- When a separator is put between. -/
theorem append_between {d n D : List Nat} (h : Path.append alpha d n = some (D ++ n)) (hD : D = d ∨ D = d ++ [92]) :
    D = d ∨ (D = d ++ [92] ∧ d ≠ [] ∧ ∀ x c, d = x ++ [c] → isSep c = false) := by
  rcases hD with hD | hD
  · exact .inl hD
  · right
    have hne : D ++ n ≠ n := by
      intro hh
      have := congrArg List.length hh
      rw [hD] at this
      simp at this
      omega
    have hnd : D ++ n ≠ d ++ n := by
      intro hh
      have := congrArg List.length hh
      rw [hD] at this
      simp at this
    unfold Path.append at h
    cases hr : Path.isRooted alpha n with
    | none => simp [hr] at h
    | some b =>
      cases b with
      | true =>
        simp only [hr, Option.bind_eq_bind, Option.bind_some, if_true, Option.pure_def, Option.some.injEq] at h
        exact absurd h.symm hne
      | false =>
        refine ⟨hD, ?_, ?_⟩
        · intro hd
          subst hd
          simp [hr] at h
          exact hnd (by rw [h])
        · intro x c hx
          cases hs : isSep c with
          | false => rfl
          | true =>
            exfalso
            cases hb : Path.bareDrive alpha d with
            | none =>
              subst hx
              simp [hr, hb] at h
            | some b' =>
              subst hx
              simp [hr, hb, hs] at h
              exact hnd (by rw [← h]; simp)

theorem textOf_spec (ha : Path.AlphaOk alpha) (g : G) (rooted : Bool) (e : Entry) (hr : 0 ∉ g.root) (hn : Name e) :
    ∃ out, textOf alpha g rooted e = some out ∧ Called alpha (if rooted then g.root else []) g.suffix e out := by
  have hd : 0 ∉ (if rooted then g.root else []) := by cases rooted; simp; exact hr
  obtain ⟨D, e1, e2, e3⟩ := Path.append_name ha hd hn.1 hn.2
  unfold textOf
  rw [e1]
  refine ⟨_, rfl, D, ?_, append_between e1 e2, e3⟩
  have h1 : e.attr.testBit dirBit = true ↔ Has e 16 := has_iff e dirBit
  congr 1
  by_cases hb : Has e 16 ∧ g.suffix = true
  · rw [if_pos hb, if_pos (by rw [h1.2 hb.1, hb.2]; rfl)]
  · rw [if_neg hb, if_neg (fun hh => hb (by rw [Bool.and_eq_true] at hh; exact ⟨h1.1 hh.1, hh.2⟩))]

/-- The results of calling `next` again and again. -/
def Gives (alpha : Nat → Bool) (rooted : Bool) : G → List (List Nat × Entry) → Prop
  | g, [] => ∃ g', next alpha rooted g = some (none, g') ∧ g'.cur = none
  | g, x :: l => ∃ g', next alpha rooted g = some (some x, g') ∧ Gives alpha rooted g' l

theorem next_none (rooted : Bool) (g : G) (h : g.cur = none) : next alpha rooted g = some (none, g) := by
  unfold next
  rw [left_eq]
  have : entries g = [] := by unfold entries; rw [h]
  rw [this]
  unfold skip
  simp [h]

/-- One call. -/
theorem next_spec (ha : Path.AlphaOk alpha) (rooted : Bool) (g : G) (hr : 0 ∉ g.root) (hn : ∀ e ∈ entries g, Name e) :
    (wanted g = [] ∧ ∃ g', next alpha rooted g = some (none, g') ∧ g'.cur = none) ∨
    (∃ e t out g', wanted g = e :: t ∧ next alpha rooted g = some (some (out, e), g') ∧ Called alpha (if rooted then g.root else []) g.suffix e out ∧
      Like g g' ∧ wanted g' = t ∧ entries g' <:+ entries g) := by
  obtain ⟨g1, e1, l1, w1, u1, s1⟩ := skip_spec (left g + 1) g (by rw [left_eq]; omega)
  unfold next
  rw [e1]
  simp only [Option.bind_eq_bind, Option.bind_some, Option.pure_def]
  cases hc : g1.cur with
  | none =>
    left
    refine ⟨?_, g1, rfl, hc⟩
    rw [← w1]
    unfold wanted entries
    rw [hc]
    rfl
  | some p =>
    obtain ⟨e, r⟩ := p
    right
    have hl : entries g1 = e :: r := by unfold entries; rw [hc]
    have hf : wanted g1 = e :: r.filter fun x => !again g1 x := by
      unfold wanted
      rw [hl, List.filter_cons, s1 e r hc]
      rfl
    have hm : e ∈ wanted g := by rw [← w1, hf]; simp
    have hne : Name e := hn e (List.mem_filter.1 hm).1
    obtain ⟨out, eo, ht⟩ := textOf_spec ha g1 rooted e (by rw [l1.2.1]; exact hr) hne
    obtain ⟨h1, h2⟩ := nextFile_spec g1 e r hc
    refine ⟨e, r.filter (fun x => !again g1 x), out, nextFile g1, by rw [← w1, hf], ?_, ?_, l1.trans h2, ?_, ?_⟩
    · simp only []
      rw [eo]
      rfl
    · rw [← l1.2.1, ← l1.2.2]; exact ht
    · unfold wanted
      rw [h1]
      congr 1
      funext x
      rw [again_like h2]
    · rw [h1]
      rw [hl] at u1
      exact (List.suffix_cons e r).trans u1

theorem gives_aux (ha : Path.AlphaOk alpha) (rooted : Bool) : ∀ (l : List Entry) (g : G), wanted g = l → 0 ∉ g.root →
    (∀ e ∈ entries g, Name e) → ∃ outs, Gives alpha rooted g outs ∧ outs.map (·.2) = l ∧
      ∀ x ∈ outs, Called alpha (if rooted then g.root else []) g.suffix x.2 x.1 := by
  intro l
  induction l with
  | nil =>
    intro g hw hr hn
    rcases next_spec ha rooted g hr hn with ⟨_, h⟩ | ⟨e, t, _, _, h, _⟩
    · exact ⟨[], h, rfl, by simp⟩
    · rw [hw] at h; exact absurd h (by simp)
  | cons e l ih =>
    intro g hw hr hn
    rcases next_spec ha rooted g hr hn with ⟨h, _⟩ | ⟨e', t, out, g', h, e1, ht, hl, hw', hu⟩
    · rw [hw] at h; exact absurd h (by simp)
    · rw [hw] at h
      injection h with h1 h2
      subst h1 h2
      have hsub : ∀ x ∈ entries g', Name x := by
        intro x hx
        exact hn x (hu.subset hx)
      obtain ⟨outs, a, b, c⟩ := ih g' hw' (by rw [hl.2.1]; exact hr) hsub
      refine ⟨(out, e) :: outs, ⟨g', e1, a⟩, by simp [b], ?_⟩
      intro x hx
      rcases List.mem_cons.1 hx with hx | hx
      · rw [hx]; exact ht
      · have := c x hx
        rw [hl.2.1, hl.2.2] at this
        exact this

open Path (Seps NoSeps cstr) in
/-- The directory and the name of a pattern. -/
theorem dir_split (ha : Path.AlphaOk alpha) {s : List Nat} (hz : 0 ∉ s) :
    ∃ d a n, Path.getDirectory alpha s = some d ∧ Path.getName alpha s = some n ∧ s = d ++ a ++ n ∧ Seps a ∧ NoSeps n := by
  suffices hk : ∃ k m, Path.getDirectoryEnd alpha (cstr s) = some k ∧ Path.getName alpha s = some (s.drop m) ∧ k ≤ m ∧ m ≤ s.length ∧
      (∀ i, k ≤ i → i < m → isSep (s.getD i 0) = true) ∧ ∀ i, m ≤ i → i < s.length → isSep (s.getD i 0) = false by
    obtain ⟨k, m, h1, h2, h3, h4, h5, h6⟩ := hk
    refine ⟨s.take k, (s.drop k).take (m - k), s.drop m, ?_, h2, ?_, ?_, ?_⟩
    · unfold Path.getDirectory
      rw [h1]
      rfl
    · have : s.drop m = (s.drop k).drop (m - k) := by rw [List.drop_drop]; congr 1; omega
      rw [this, List.append_assoc, List.take_append_drop, List.take_append_drop]
    · intro c hc
      obtain ⟨i, hi, rfl⟩ := List.getElem_of_mem hc
      simp only [List.length_take, List.length_drop] at hi
      have := h5 (k + i) (by omega) (by omega)
      simpa [List.getElem?_eq_getElem (show k + i < s.length by omega)] using this
    · intro c hc
      obtain ⟨i, hi, rfl⟩ := List.getElem_of_mem hc
      simp only [List.length_drop] at hi
      have := h6 (m + i) (by omega) (by omega)
      simpa [List.getElem?_eq_getElem (show m + i < s.length by omega)] using this
  obtain ⟨p, e, hp, -⟩ := Matches.drive_split ha hz
  unfold Path.getDirectoryEnd Path.getName
  rw [e]
  simp only [Option.bind_eq_bind, Option.bind_some, Path.strlen_cstr hz p hp]
  have hlead : ∃ b, (if p = 0 then (Path.rd (cstr s) p).bind fun x => some (isSep x)
      else (Path.rd (cstr s) (p - 1)).bind fun x => if x = 58 then (Path.rd (cstr s) p).bind fun x => some (isSep x) else some false) = some b
      ∧ (b = true → isSep (s.getD p 0) = true) := by
    rw [Path.rd_cstr (i := p) (by omega), Path.rd_cstr (i := p - 1) (by omega)]
    simp only [Option.bind_some]
    split
    · exact ⟨_, rfl, id⟩
    · split
      · exact ⟨_, rfl, id⟩
      · exact ⟨_, rfl, by simp⟩
  obtain ⟨b, hb, hbs⟩ := hlead
  simp only [Option.pure_def, hb, Option.bind_some]
  generalize hP : (if b = true then p + 1 else p) = P
  have hPl : P ≤ s.length ∧ (P = p ∨ (P = p + 1 ∧ isSep (s.getD p 0) = true)) := by
    cases b with
    | false => simp at hP; omega
    | true =>
      simp at hP
      have h1 := hbs rfl
      rcases Nat.lt_or_ge p s.length with h | h
      · exact ⟨by omega, .inr ⟨hP.symm, h1⟩⟩
      · have h0 : s.getD p 0 = 0 := by simp [List.getElem?_eq_none h]
        rw [h0] at h1; simp [isSep] at h1
  rw [Path.strlen_cstr hz P hPl.1]
  simp only [Option.bind_some]
  obtain ⟨o, e1, e2⟩ := Path.lastSep_cstr (s := s) P (s.length - P) (by omega)
  obtain ⟨o', e1', e2'⟩ := Path.lastSep_cstr (s := s) p (s.length - p) (by omega)
  rw [e1, e1']
  simp only [Option.bind_some]
  cases o with
  | none =>
    refine ⟨P, P, rfl, ?_, Nat.le_refl _, hPl.1, fun i _ _ => by omega, fun i h1 h2 => e2 i h1 (by omega)⟩
    cases o' with
    | none =>
      rcases hPl.2 with h | ⟨h1, h2⟩
      · simp only [Option.some.injEq]; rw [h]
      · have : p < s.length := by omega
        rw [e2' p (by omega) (by omega)] at h2; simp at h2
    | some q' =>
      obtain ⟨g1, g2, g3, g4⟩ := e2'
      simp only [Option.some.injEq]
      congr 1
      rcases Nat.lt_or_ge q' P with h | h
      · omega
      · rw [e2 q' h (by omega)] at g3; simp at g3
  | some q =>
    obtain ⟨g1, g2, g3, g4⟩ := e2
    obtain ⟨k, k1, k2, k3, k4⟩ := Path.trimBack_cstr (s := s) P (q + 1) (by omega)
    simp only [k1, Option.bind_some]
    have hn : o' = some q := by
      cases o' with
      | none => rw [e2' q (by omega) (by omega)] at g3; simp at g3
      | some q' =>
        obtain ⟨f1, f2, f3, f4⟩ := e2'
        have : q' = q := by
          rcases Nat.lt_trichotomy q' q with h | h | h
          · rw [f4 q h (by omega)] at g3; simp at g3
          · exact h
          · rw [g4 q' h (by omega)] at f3; simp at f3
        rw [this]
    refine ⟨if k ≠ P then k else q, q + 1, rfl, ?_, ?_, by omega, ?_, fun i h1 h2 => g4 i (by omega) (by omega)⟩
    · rw [hn]
    · split <;> omega
    · intro i h1 h2
      split at h1
      · exact k4 i h1 h2
      · have : i = q := by omega
        rw [this]; exact g3

end Clink.Glob
