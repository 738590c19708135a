import Verif.Model.HistFile
import Verif.Spec.HistFile

namespace Clink.Hist

open Spec

theorem isBreak_iff (c : Nat) : isBreak c = true ↔ IsBreak c := by simp [isBreak, IsBreak, or_assoc]

theorem isBreak_false (c : Nat) : isBreak c = false ↔ ¬ IsBreak c := by
  rw [← isBreak_iff]; simp

/-! Lines of a file. -/

theorem lines_breaks {g : List Nat} (hg : ∀ c ∈ g, IsBreak c) (k : Bool) (o : Nat) (s : List Nat) : lines k o [] (g ++ s) = lines k (o + g.length) [] s := by
  induction g generalizing o with
  | nil => rfl
  | cons c g ih =>
    rw [List.cons_append, lines, if_pos (hg c (by simp)), if_pos rfl, List.nil_append, ih (fun x hx => hg x (by simp [hx]))]
    congr 1; simp; omega

theorem lines_text {w : List Nat} (hw : ∀ c ∈ w, ¬ IsBreak c) (k : Bool) (o : Nat) (cur s : List Nat) : lines k o cur (w ++ s) = lines k (o + w.length) (cur ++ w) s := by
  induction w generalizing o cur with
  | nil => simp
  | cons c w ih =>
    rw [List.cons_append, lines, if_neg (hw c (by simp)), ih (fun x hx => hw x (by simp [hx]))]
    congr 1
    · simp; omega
    · simp

theorem lines_line {w : List Nat} (hw : ∀ c ∈ w, ¬ IsBreak c) (hne : w ≠ []) {b : Nat} (hb : IsBreak b) (k : Bool) (o : Nat) (s : List Nat) :
    lines k o [] (w ++ b :: s) = (o, w) :: lines k (o + w.length) [] (b :: s) := by
  rw [lines_text hw, List.nil_append, lines, if_pos hb, if_neg hne, lines, if_pos hb, if_pos rfl]
  simp

/-! The iterator. -/

/-- What is not read yet, and its offset. -/
def LineIter.stream (i : LineIter) : List Nat := i.f.buf.drop (i.f.buf.length - i.remaining) ++ i.f.rest

def LineIter.pos (i : LineIter) : Int := i.f.off + (i.f.buf.length - i.remaining : Nat)

structure Inv (size : Nat) (i : LineIter) (total : Nat) : Prop where
  rem : i.remaining ≤ i.f.buf.length
  full : i.f.rest = [] ∨ i.f.buf.length = size
  fits : Fits size i.stream
  pos0 : 0 ≤ i.pos
  total : i.pos + i.stream.length = total
  eating : i.eating = true → i.stream = [] ∨ i.stream.head? = some 124

def view (e : Entry) : Nat × List Nat × List Nat × Option Nat := (e.offset, e.text, e.stamp.text, e.stamp.offset)

/-- The entries that are still to come. -/
def LineIter.todo (i : LineIter) (last : Bool) (stamp : Stamp) : List (Nat × List Nat × List Nat × Option Nat) :=
  stamped i.removals (stamp.text, stamp.offset) (lines last i.pos.toNat [] i.stream)

theorem Spec.Complete.suffix {u v : List Nat} (h : Complete (u ++ v)) : Complete v := by
  intro c hc
  apply h c
  rw [List.getLast?_append, hc]; rfl

theorem Spec.Fits.suffix {n : Nat} {u v : List Nat} (h : Fits n (u ++ v)) : Fits n v := fun w hw =>
  h w (hw.trans ⟨u, [], by simp⟩)

theorem Spec.Fits.pos {n : Nat} {u : List Nat} (h : Fits n u) : 0 < n := by
  have := h [] (List.nil_infix) (by simp)
  simpa using this

/-- Reading more bytes keeps what is to be read. -/
theorem provision_spec {size total : Nat} {i : LineIter} (hr : i.remaining ≤ i.f.buf.length) (hf : i.f.rest = [] ∨ i.f.buf.length = size)
    (hlt : i.f.rest ≠ [] → i.remaining < i.f.buf.length)
    (hfit : Fits size i.stream) (h0 : 0 ≤ i.pos) (ht : i.pos + i.stream.length = total)
    (he : i.eating = true → i.stream = [] ∨ i.stream.head? = some 124) :
    Inv size i.provision total ∧ i.provision.removals = i.removals ∧
    (if i.f.rest = [] then i.provision.remaining = 0 ∧ i.provision.f.rest = [] else
      i.provision.measure < i.measure ∧ i.provision.remaining ≠ 0 ∧ i.provision.stream = i.stream ∧ i.provision.pos = i.pos) := by
  by_cases hrest : i.f.rest = []
  · have hp : i.provision.remaining = 0 ∧ i.provision.f.rest = [] ∧ i.provision.f.off = i.f.off ∧ i.provision.f.buf.length = i.f.buf.length := by
      unfold LineIter.provision FileIter.next
      rw [if_pos hrest]
      exact ⟨rfl, hrest, rfl, by simp⟩
    have hs : i.provision.stream = [] := by simp [LineIter.stream, hp.1, hp.2.1]
    have hp2 : i.provision.pos = i.pos + i.stream.length := by
      rw [LineIter.pos, LineIter.pos, LineIter.stream, hp.1, hp.2.2.1, hp.2.2.2, hrest]; simp; omega
    refine ⟨⟨by omega, .inl hp.2.1, by rw [hs]; exact Fits.suffix (u := i.stream) (by simpa using hfit), by omega, by rw [hs, hp2]; simpa using ht, fun _ => .inl hs⟩, rfl, ?_⟩
    rw [if_pos hrest]; exact ⟨hp.1, hp.2.1⟩
  · have hn : i.f.buf.length = size := hf.resolve_left hrest
    have hlt := hlt hrest
    obtain ⟨k, hk⟩ : ∃ k, k = min i.f.rest.length (i.f.buf.length - i.remaining) := ⟨_, rfl⟩
    have hk0 : 0 < k := by
      have : 0 < i.f.rest.length := List.length_pos_iff.2 hrest
      omega
    have hp : i.provision = { i with f := ⟨i.f.buf.drop (i.f.buf.length - i.remaining) ++ i.f.rest.take k, i.f.off + (i.f.buf.length - i.remaining : Nat), i.f.rest.drop k⟩, remaining := i.remaining + k } := by
      unfold LineIter.provision FileIter.next
      rw [if_neg hrest]
      simp only [Nat.min_eq_left hr, ← hk]
      congr 1
      simp; omega
    have hlen : (i.f.buf.drop (i.f.buf.length - i.remaining) ++ i.f.rest.take k).length = i.remaining + k := by simp; omega
    have h1 : i.provision.stream = i.stream := by
      rw [hp]
      unfold LineIter.stream
      simp only [hlen, Nat.sub_self, List.drop_zero, List.append_assoc, List.take_append_drop]
    have h2 : i.provision.pos = i.pos := by
      rw [hp]
      unfold LineIter.pos
      simp only [hlen, Nat.sub_self]
      simp
    refine ⟨⟨by rw [hp]; exact Nat.le_of_eq hlen.symm, ?_, h1 ▸ hfit, h2 ▸ h0, by rw [h1, h2]; exact ht, ?_⟩, rfl, ?_⟩
    · rw [hp]
      simp only [hlen]
      by_cases h : i.f.rest.length ≤ i.f.buf.length - i.remaining
      · left; rw [hk, Nat.min_eq_left h]; simp
      · right; omega
    · intro h
      rw [h1]
      rw [hp] at h
      exact he h
    · rw [if_neg hrest]
      refine ⟨?_, by rw [hp]; simp; omega, h1, h2⟩
      rw [hp]
      simp only [LineIter.measure, List.length_drop]
      omega

theorem takeWhile_all {p : Nat → Bool} (l : List Nat) : ∀ c ∈ l.takeWhile p, p c = true := by
  induction l with
  | nil => simp
  | cons c l ih =>
    rw [List.takeWhile_cons]
    split
    · intro x hx
      rcases List.mem_cons.1 hx with rfl | h
      · assumption
      · exact ih x h
    · simp

theorem dropWhile_head {p : Nat → Bool} (l : List Nat) {c : Nat} {r : List Nat} (h : l.dropWhile p = c :: r) : p c = false := by
  induction l with
  | nil => simp at h
  | cons x l ih =>
    rw [List.dropWhile_cons] at h
    split at h
    · exact ih h
    · rename_i hx; cases h; simpa using hx

/-- A line that was read. -/
theorem line_spec (i : LineIter) (eating : Bool) (offset : Nat) (text : List Nat) (stamp : Stamp) (ls : List (Nat × List Nat))
    (ho : offset < maxOffset) (he : eating = true → text.head? = some 124) :
    (i.line eating offset text stamp).1 = { i with deleted := (i.line eating offset text stamp).1.deleted } ∧
    stamped i.removals (stamp.text, stamp.offset) ((offset, text) :: ls) =
      match (i.line eating offset text stamp).2 with
      | .inl st => stamped i.removals (st.text, st.offset) ls
      | .inr e => view e :: stamped i.removals ([], none) ls := by
  have hb : decide (offset ≥ maxOffset) = false := by simpa using ho
  have ht : IsTime text ↔ timePrefix <+: text := ⟨fun ⟨t, h⟩ => ⟨t, h.symm⟩, fun ⟨t, h⟩ => ⟨t, h.symm⟩⟩
  have hdel : IsDeleted text ↔ text.head? = some 124 := by
    cases text with
    | nil => simp [IsDeleted]
    | cons c r => simp [IsDeleted]
  unfold LineIter.line
  simp only [hb, Bool.false_eq_true, if_false, Bool.not_false, Bool.true_and]
  by_cases h1 : timePrefix <+: text
  · rw [if_pos h1]
    refine ⟨rfl, ?_⟩
    rw [stamped, if_pos (ht.2 h1)]
  · rw [if_neg h1, stamped, if_neg (fun h => h1 (ht.1 h))]
    by_cases h2 : text.head? = some 124
    · rw [if_pos (hdel.2 h2)]
      simp [h2]
    · rw [if_neg (fun h => h2 (hdel.1 h))]
      have h3 : eating = false := by
        cases eating with
        | false => rfl
        | true => exact absurd (he rfl) h2
      by_cases h4 : offset ∈ i.removals
      · rw [if_pos h4]
        simp [h2, h3, h4]
      · rw [if_neg h4]
        simp [h2, h3, h4, view]

theorem start_spec (i : LineIter) (l : List Nat) :
    (i.start l).1 = { i with first := (i.start l).1.first, eating := (i.start l).2 } ∧ ((i.start l).2 = true → l.head? = some 124 ∨ i.eating = true) := by
  cases l with
  | nil => exact ⟨rfl, fun h => .inr h⟩
  | cons c r =>
    obtain ⟨f, rem, first, eat, del, rs⟩ := i
    by_cases h1 : first = true <;> by_cases h2 : c = 124 <;> simp [LineIter.start, h1, h2]

theorem Spec.Complete.last {l : List Nat} (h : Complete l) (hl : ∀ c ∈ l, ¬ IsBreak c) : l = [] := by
  by_cases hn : l = []
  · exact hn
  · have := h (l.getLast hn) (List.getLast?_eq_some_getLast hn)
    exact absurd this (hl _ (List.getLast_mem hn))

/-- One iteration. -/
theorem iteration_spec {size total : Nat} {i : LineIter} (h : Inv size i total) (ht : total ≤ maxOffset) (h0 : i.remaining ≠ 0) (stamp : Stamp) :
    (i.iteration stamp).1.removals = i.removals ∧ Inv size (i.iteration stamp).1 total ∧ (i.iteration stamp).1.measure < i.measure ∧
      ∀ b, ∃ b', i.todo b' stamp = match (i.iteration stamp).2 with
        | .inl st => (i.iteration stamp).1.todo b st
        | .inr e => view e :: (i.iteration stamp).1.todo b {} := by
  obtain ⟨hr, hf, hfit, hp0, htot, he⟩ := h
  obtain ⟨p, hp⟩ : ∃ p, p = i.f.buf.length - i.remaining := ⟨_, rfl⟩
  obtain ⟨seg, hseg⟩ : ∃ seg, seg = i.f.buf.drop p := ⟨_, rfl⟩
  obtain ⟨g, hg⟩ : ∃ g, g = seg.takeWhile isBreak := ⟨_, rfl⟩
  obtain ⟨l, hl⟩ : ∃ l, l = seg.dropWhile isBreak := ⟨_, rfl⟩
  obtain ⟨text, htext⟩ : ∃ text, text = l.takeWhile fun c => !isBreak c := ⟨_, rfl⟩
  have hgl : g ++ l = seg := by rw [hg, hl, List.takeWhile_append_dropWhile]
  have hlen : g.length + l.length = i.remaining := by
    rw [← List.length_append, hgl, hseg, List.length_drop]; omega
  have hstream : i.stream = g ++ (l ++ i.f.rest) := by
    rw [LineIter.stream, ← hp, ← hseg, ← hgl, List.append_assoc]
  have hpos : i.pos = i.f.off + p := by rw [LineIter.pos, ← hp]
  have hgb : ∀ c ∈ g, IsBreak c := fun c hc => (isBreak_iff c).1 (takeWhile_all seg c (hg ▸ hc))
  have htb : ∀ c ∈ text, ¬ IsBreak c := fun c hc => by
    have := takeWhile_all l c (htext ▸ hc)
    simpa [isBreak_false] using this
  -- what eating means
  have hel : i.eating = true → l.head? = some 124 := by
    intro h
    have h2 : i.stream.head? = some 124 := by
      refine (he h).resolve_left fun hs => ?_
      rw [hstream] at hs
      simp only [List.append_eq_nil_iff] at hs
      rw [hs.1, hs.2.1] at hlen; simp at hlen; omega
    cases hg' : g with
    | cons c g' =>
      rw [hstream, hg'] at h2
      simp only [List.cons_append, List.head?_cons, Option.some.injEq] at h2
      have := hgb c (by rw [hg']; simp)
      rw [h2] at this
      simp [IsBreak] at this
    | nil =>
      have : l ≠ [] := by
        intro hl'; rw [hg', hl'] at hlen; simp at hlen; omega
      obtain ⟨c, l', hl'⟩ := List.exists_cons_of_ne_nil this
      rw [hstream, hg', hl'] at h2
      rw [hl']; simpa using h2
  obtain ⟨s, hs⟩ : ∃ s, s = ({ i with remaining := i.remaining - g.length } : LineIter).start l := ⟨_, rfl⟩
  obtain ⟨hs1, hs2⟩ := start_spec { i with remaining := i.remaining - g.length } l
  rw [← hs] at hs1 hs2
  obtain ⟨i2, eat⟩ := s
  simp only at hs1 hs2
  have heat : eat = true → l.head? = some 124 := fun h => (hs2 h).elim id hel
  obtain ⟨fst, hfst⟩ : ∃ x, x = i2.first := ⟨_, rfl⟩
  rw [← hfst] at hs1
  clear hfst hs2
  subst hs1
  have hunf : i.iteration stamp =
      (if !decide (text.length < l.length) && decide (p + g.length ≠ 0) then
        ((⟨i.f, l.length, fst, eat, i.deleted, i.removals⟩ : LineIter).provision, .inl stamp)
      else LineIter.line ⟨i.f, l.length - text.length, false, (if text.length < l.length then false else eat), i.deleted, i.removals⟩
        eat (i.f.off + (p + g.length : Nat)).toNat text stamp) := by
    have h1 : i.remaining - g.length = l.length := by omega
    rw [h1] at hs
    unfold LineIter.iteration
    simp only [← hp, ← hseg, ← hg, ← hl, ← htext, h1]
    rw [← hs]
    by_cases hend : text.length < l.length
    · simp [hend]
    · simp [hend]
  have htle : text.length ≤ l.length := by rw [htext]; exact (List.takeWhile_prefix _).length_le
  have hpl : p + g.length + l.length = i.f.buf.length := by omega
  have hdrop : i.f.buf.drop (p + g.length) = l := by
    rw [← List.drop_drop, ← hseg, ← hgl]; simp
  by_cases hend : text.length < l.length
  · -- the line is complete
    rw [hunf]
    simp only [hend, decide_true, Bool.not_true, Bool.false_and, Bool.false_eq_true, if_false, if_true]
    obtain ⟨r, hr'⟩ : ∃ r, r = l.dropWhile fun c => !isBreak c := ⟨_, rfl⟩
    have htr : text ++ r = l := by rw [htext, hr', List.takeWhile_append_dropWhile]
    have hrne : r ≠ [] := by intro h; rw [h, List.append_nil] at htr; rw [htr] at hend; omega
    obtain ⟨b, r', hbr⟩ := List.exists_cons_of_ne_nil hrne
    have hb : IsBreak b := by
      have := dropWhile_head l (hr' ▸ hbr)
      rw [← isBreak_iff]; simpa using this
    have hlne : l ≠ [] := by intro h; rw [h] at hend; simp at hend
    have htne : text ≠ [] := by
      obtain ⟨c, l', hl'⟩ := List.exists_cons_of_ne_nil hlne
      have := dropWhile_head seg (hl ▸ hl')
      rw [htext, hl', List.takeWhile_cons, if_pos (by simpa using this)]; simp
    have hoff : (i.f.off + (p + g.length : Nat)).toNat = i.pos.toNat + g.length := by omega
    have hslen : i.stream.length = g.length + (l.length + i.f.rest.length) := by rw [hstream]; simp
    obtain ⟨j, hj⟩ : ∃ j : LineIter, j = ⟨i.f, l.length - text.length, false, false, i.deleted, i.removals⟩ := ⟨_, rfl⟩
    rw [← hj]
    have hsp := fun b => line_spec j eat (i.f.off + (p + g.length : Nat)).toNat text stamp (lines b (i.pos.toNat + g.length + text.length) [] (r ++ i.f.rest))
      (by omega) (fun h => by
        have := heat h
        rw [← htr] at this
        obtain ⟨c, t', ht'⟩ := List.exists_cons_of_ne_nil htne
        rw [ht'] at this ⊢; simpa using this)
    obtain ⟨res, hres⟩ : ∃ res, res = j.line eat (i.f.off + (p + g.length : Nat)).toNat text stamp := ⟨_, rfl⟩
    rw [← hres] at hsp ⊢
    have hk := (hsp false).1
    have hst := fun b => (hsp b).2
    obtain ⟨k, out⟩ := res
    simp only at hk hst ⊢
    have hjr : j.removals = i.removals := by rw [hj]
    have hkr : k.removals = i.removals := by rw [hk]; exact hjr
    have hrl : text.length + r.length = l.length := by rw [← List.length_append, htr]
    have hkrem : k.remaining = r.length := by rw [hk, hj]; simp only; omega
    have hkf : k.f = i.f := by rw [hk, hj]
    have hks : k.stream = r ++ i.f.rest := by
      rw [LineIter.stream, hkf, hkrem]
      congr 1
      have : i.f.buf.length - r.length = p + g.length + text.length := by omega
      rw [this, ← List.drop_drop, hdrop, ← htr]; simp
    have hkp : k.pos = i.pos + (g.length + text.length : Nat) := by
      rw [LineIter.pos, hkf, hkrem, hpos]; omega
    have hst2 : i.stream = (g ++ text) ++ k.stream := by rw [hstream, hks, ← htr]; simp
    refine ⟨hkr, ⟨by rw [hkf, hkrem]; omega, by rw [hkf]; exact hf, ?_, by omega, ?_, ?_⟩, ?_, fun b => ⟨b, ?_⟩⟩
    · rw [hst2] at hfit; exact hfit.suffix
    · rw [hst2] at htot; rw [hkp]; simp at htot ⊢; omega
    · intro h; rw [hk, hj] at h; simp at h
    · have : 0 < text.length := List.length_pos_iff.2 htne
      rw [LineIter.measure, LineIter.measure, hkf, hkrem]; omega
    · have hl1 : lines b i.pos.toNat [] i.stream = (i.pos.toNat + g.length, text) :: lines b (i.pos.toNat + g.length + text.length) [] (r ++ i.f.rest) := by
        rw [hstream, lines_breaks hgb, ← htr, hbr, List.append_assoc, List.cons_append, lines_line htb htne hb]
      have hl2 : ∀ st, k.todo b st = stamped i.removals (st.text, st.offset) (lines b (i.pos.toNat + g.length + text.length) [] (r ++ i.f.rest)) := by
        intro st
        rw [LineIter.todo, hkr, hks]
        congr 2
        omega
      have hst := hst b
      rw [hoff] at hst
      rw [LineIter.todo, hl1, ← hjr, hst]
      cases out <;> simp only [hl2, hjr]
  · -- it is not
    have htl : text = l := (List.takeWhile_prefix _).eq_of_length_le (htext ▸ Nat.le_of_not_lt hend) |> fun h => htext.trans h
    have hlb : ∀ c ∈ l, ¬ IsBreak c := htl ▸ htb
    have hfl : Fits size (l ++ i.f.rest) := by rw [hstream] at hfit; exact hfit.suffix
    by_cases hz : p + g.length = 0
    · have hll : l.length = i.f.buf.length := by omega
      have hrest : i.f.rest = [] := by
        rcases hf with hf | hf
        · exact hf
        · have := hfl l ⟨[], i.f.rest, by simp⟩ hlb
          omega
      have hgn : g = [] := List.length_eq_zero_iff.1 (by omega)
      have hlne : l ≠ [] := by intro h; rw [h] at hll; simp at hll; omega
      have hc1 : ¬ (!decide (text.length < l.length) && decide (p + g.length ≠ 0)) = true := by simp [hz]
      rw [hunf, if_neg hc1, if_neg hend]
      have hsl : i.stream = l := by rw [hstream, hgn, hrest]; simp
      have hoff : (i.f.off + (p + g.length : Nat)).toNat = i.pos.toNat := by omega
      obtain ⟨j, hj⟩ : ∃ j : LineIter, j = ⟨i.f, l.length - text.length, false, eat, i.deleted, i.removals⟩ := ⟨_, rfl⟩
      rw [← hj]
      have hlpos : 0 < l.length := List.length_pos_iff.2 hlne
      have hsp := line_spec j eat (i.f.off + (p + g.length : Nat)).toNat text stamp [] (by rw [hsl] at htot; omega) (fun h => htl ▸ heat h)
      obtain ⟨res, hres⟩ : ∃ res, res = j.line eat (i.f.off + (p + g.length : Nat)).toNat text stamp := ⟨_, rfl⟩
      rw [← hres] at hsp ⊢
      obtain ⟨hk, hst⟩ := hsp
      obtain ⟨k, out⟩ := res
      simp only at hk hst ⊢
      have hjr : j.removals = i.removals := by rw [hj]
      have hkr : k.removals = i.removals := by rw [hk]; exact hjr
      have hkrem : k.remaining = 0 := by rw [hk, hj, htl]; simp
      have hkf : k.f = i.f := by rw [hk, hj]
      have hks : k.stream = [] := by rw [LineIter.stream, hkf, hkrem, hrest]; simp
      have hkp : k.pos = i.pos + l.length := by
        rw [LineIter.pos, hkf, hkrem, hpos]; omega
      refine ⟨hkr, ⟨by omega, .inl (hkf ▸ hrest), ?_, by omega, ?_, fun _ => .inl hks⟩, ?_, fun b => ⟨true, ?_⟩⟩
      · rw [hks]; exact Fits.suffix (u := i.stream) (by simpa using hfit)
      · rw [hks, hkp]; rw [hsl] at htot; simpa using htot
      · rw [LineIter.measure, LineIter.measure, hkf, hkrem]; omega
      · have hl1 : lines true i.pos.toNat [] i.stream = [(i.pos.toNat, text)] := by
          rw [hsl, ← List.append_nil l, lines_text hlb, htl]
          simp [lines, hlne]
        have hl2 : ∀ st, k.todo b st = [] := by
          intro st
          rw [LineIter.todo, hks]
          simp [lines, stamped]
        rw [LineIter.todo, hl1, ← hjr, ← hoff, hst]
        cases out <;> simp only [hl2, stamped]
    · have hc1 : (!decide (text.length < l.length) && decide (p + g.length ≠ 0)) = true := by simp only [hend, decide_false, Bool.not_false, Bool.true_and]; exact decide_eq_true hz
      rw [hunf, if_pos hc1]
      obtain ⟨j, hj⟩ : ∃ j : LineIter, j = ⟨i.f, l.length, fst, eat, i.deleted, i.removals⟩ := ⟨_, rfl⟩
      have hjf : j.f = i.f := by rw [hj]
      have hjrem : j.remaining = l.length := by rw [hj]
      have hjs : j.stream = l ++ i.f.rest := by
        rw [LineIter.stream, hjf, hjrem]
        congr 1
        have : i.f.buf.length - l.length = p + g.length := by omega
        rw [this, hdrop]
      have hjp : j.pos = i.pos + g.length := by
        rw [LineIter.pos, hjf, hjrem, hpos]; omega
      have hjr : j.removals = i.removals := by rw [hj]
      rw [← hj]
      have hps := provision_spec (size := size) (total := total) (i := j) (by rw [hjf, hjrem]; omega) (by rw [hjf]; exact hf)
        (by rw [hjf, hjrem]; intro _; omega) (hjs ▸ hfl) (by omega)
        (by rw [hjs, hjp]; rw [hstream] at htot; simp at htot ⊢; omega)
        (by
          intro h
          rw [hj] at h
          have := heat h
          right
          rw [hjs, List.head?_append, this]; rfl)
      obtain ⟨q1, q4, q5⟩ := hps
      have hjm : j.measure ≤ i.measure := by rw [LineIter.measure, LineIter.measure, hjf, hjrem]; omega
      refine ⟨q4.trans hjr, q1, ?_, ?_⟩
      · by_cases hre : j.f.rest = []
        · rw [if_pos hre] at q5
          rw [LineIter.measure, LineIter.measure, q5.1, q5.2, List.length_nil]; omega
        · rw [if_neg hre] at q5; exact Nat.lt_of_lt_of_le q5.1 hjm
      · intro b
        have : (i.pos + g.length).toNat = i.pos.toNat + g.length := by omega
        by_cases hre : j.f.rest = []
        · rw [if_pos hre] at q5
          refine ⟨false, ?_⟩
          show i.todo false stamp = j.provision.todo b stamp
          have hs0 : j.provision.stream = [] := by simp [LineIter.stream, q5.1, q5.2]
          rw [LineIter.todo, LineIter.todo, hs0, hstream, lines_breaks hgb, ← hjf, hre, lines_text hlb]
          simp [lines, stamped]
        · rw [if_neg hre] at q5
          obtain ⟨-, -, q2, q3⟩ := q5
          refine ⟨b, ?_⟩
          show i.todo b stamp = j.provision.todo b stamp
          rw [LineIter.todo, LineIter.todo, q4, hjr, q2, q3, hjs, hjp, hstream, lines_breaks hgb, this]

theorem provision_inv {size total : Nat} {i : LineIter} (h : Inv size i total) (h0 : i.remaining = 0) (st : Stamp) :
    Inv size i.provision total ∧ i.provision.removals = i.removals ∧ i.provision.measure ≤ i.measure ∧
      ∀ b, i.provision.todo b st = i.todo b st ∧ (i.provision.remaining = 0 → i.todo b st = []) := by
  have hps := provision_spec (size := size) (total := total) (i := i) h.rem h.full
    (fun hr => by
      have := h.fits.pos
      have := h.full.resolve_left hr
      omega) h.fits h.pos0 h.total h.eating
  obtain ⟨q1, q4, q5⟩ := hps
  by_cases hre : i.f.rest = []
  · rw [if_pos hre] at q5
    have h1 : i.stream = [] := by simp [LineIter.stream, hre, h0]
    have h2 : i.provision.stream = [] := by simp [LineIter.stream, q5.1, q5.2]
    refine ⟨q1, q4, by rw [LineIter.measure, LineIter.measure, q5.1, q5.2]; simp, fun b => ⟨?_, fun _ => ?_⟩⟩
    · rw [LineIter.todo, LineIter.todo, h1, h2, q4]; simp [lines]
    · rw [LineIter.todo, h1]; simp [lines, stamped]
  · rw [if_neg hre] at q5
    exact ⟨q1, q4, Nat.le_of_lt q5.1, fun b => ⟨by rw [LineIter.todo, LineIter.todo, q5.2.2.1, q5.2.2.2, q4], fun hz => absurd hz q5.2.1⟩⟩

/-- `line_iter::next`. -/
theorem nextFrom_spec {size total : Nat} (ht : total ≤ maxOffset) (n : Nat) : ∀ {i : LineIter}, i.measure < n → Inv size i total → ∀ stamp,
    ∃ j o, i.nextFrom stamp = some (j, o) ∧ Inv size j total ∧ j.removals = i.removals ∧
      match o with
      | none => ∃ b, i.todo b stamp = []
      | some e => (∀ b, ∃ b', i.todo b' stamp = view e :: j.todo b {}) ∧ j.measure < i.measure := by
  induction n with
  | zero => intro i hi; omega
  | succ n ih =>
    intro i hi h stamp
    obtain ⟨j, hj⟩ : ∃ j, j = if i.remaining = 0 then i.provision else i := ⟨_, rfl⟩
    have hjs : Inv size j total ∧ j.removals = i.removals ∧ j.measure ≤ i.measure ∧ ∀ b, j.todo b stamp = i.todo b stamp ∧ (j.remaining = 0 → i.todo b stamp = []) := by
      rw [hj]
      split
      · rename_i h0; exact provision_inv h h0 stamp
      · rename_i h0; exact ⟨h, rfl, Nat.le_refl _, fun b => ⟨rfl, fun hz => absurd hz h0⟩⟩
    obtain ⟨q1, q3, q4, q5⟩ := hjs
    rw [LineIter.nextFrom]
    simp only [← hj]
    by_cases h0 : j.remaining = 0
    · rw [if_pos h0]
      exact ⟨j, none, rfl, q1, q3, false, (q5 false).2 h0⟩
    · rw [if_neg h0]
      obtain ⟨r1, r2, r3, r4⟩ := iteration_spec q1 ht h0 stamp
      obtain ⟨res, hres⟩ : ∃ res, res = j.iteration stamp := ⟨_, rfl⟩
      rw [← hres] at r1 r2 r3 r4 ⊢
      obtain ⟨k, out⟩ := res
      simp only at r1 r2 r3 r4 ⊢
      simp only [(q5 _).1] at r4
      cases out with
      | inr e => exact ⟨k, some e, rfl, r2, r1.trans q3, r4, by omega⟩
      | inl st =>
        simp only at r4 ⊢
        rw [if_pos (by omega)]
        obtain ⟨k', o, s1, s2, s3, s4⟩ := ih (i := k) (by omega) r2 st
        refine ⟨k', o, s1, s2, s3.trans (r1.trans q3), ?_⟩
        cases o with
        | none =>
          obtain ⟨b, hb⟩ := s4
          obtain ⟨b', hb'⟩ := r4 b
          exact ⟨b', hb'.trans hb⟩
        | some e =>
          refine ⟨fun b => ?_, by have := s4.2; omega⟩
          obtain ⟨b1, hb1⟩ := s4.1 b
          obtain ⟨b2, hb2⟩ := r4 b1
          exact ⟨b2, hb2.trans hb1⟩

/-- Reading all lines. -/
theorem readAll_spec {size total : Nat} (ht : total ≤ maxOffset) (n : Nat) : ∀ {i : LineIter}, i.measure < n → Inv size i total →
    ∃ es j, i.readAll = some (es, j) ∧ ∃ b, es.map view = i.todo b {} := by
  induction n with
  | zero => intro i hi; omega
  | succ n ih =>
    intro i hi h
    obtain ⟨j, o, h1, h2, h3, h4⟩ := nextFrom_spec ht (i.measure + 1) (Nat.lt_succ_self _) h {}
    rw [LineIter.readAll, LineIter.next, h1]
    cases o with
    | none => exact ⟨[], j, rfl, h4.imp fun b hb => hb.symm⟩
    | some e =>
      simp only at h4 ⊢
      rw [if_pos h4.2]
      obtain ⟨es, k, s1, b, s2⟩ := ih (i := j) (by omega) h2
      obtain ⟨b', hb'⟩ := h4.1 b
      exact ⟨e :: es, k, by rw [s1]; rfl, b', by rw [List.map_cons, s2, hb']⟩

theorem new_inv (junk file removals : List Nat) (hf : Fits junk.length file) :
    Inv junk.length (.new junk file removals) file.length ∧
      ∀ b, (LineIter.new junk file removals).todo b {} = stamped removals ([], none) (lines b 0 [] file) := by
  have hs : (LineIter.new junk file removals).stream = file := by simp [LineIter.stream, LineIter.new, FileIter.new]
  have hp : (LineIter.new junk file removals).pos = 0 := by simp [LineIter.pos, LineIter.new, FileIter.new]; omega
  refine ⟨⟨by simp [LineIter.new], .inr rfl, by rw [hs]; exact hf, by omega, by rw [hs, hp]; simp, ?_⟩, ?_⟩
  · intro h; simp [LineIter.new] at h
  · intro b; rw [LineIter.todo, hs, hp]; rfl

/-! What `lines` says. -/

theorem lines_complete {s : List Nat} (o : Nat) (cur : List Nat) (h : Complete s) (hn : s = [] → cur = []) (b : Bool) : lines b o cur s = lines false o cur s := by
  induction s generalizing o cur with
  | nil => rw [hn rfl]; simp [lines]
  | cons c r ih =>
    have hr : Complete r := h.suffix (u := [c])
    rw [lines, lines]
    split
    · rw [ih (o + 1) [] hr (fun _ => rfl)]
    · rename_i hc
      apply ih _ _ hr
      intro hr'
      exact absurd (h c (by rw [hr']; rfl)) hc

/-- Files that are read. -/
theorem readLines_spec (junk file removals : List Nat) (hlen : file.length ≤ maxOffset) (hf : Fits junk.length file) :
    ∃ es b, readLines junk file removals = some es ∧ es.map view = stamped removals ([], none) (lines b 0 [] file) := by
  obtain ⟨h1, h2⟩ := new_inv junk file removals hf
  obtain ⟨es, j, h3, b, h4⟩ := readAll_spec hlen _ (Nat.lt_succ_self _) h1
  exact ⟨es, b, by rw [readLines, h3]; rfl, h4.trans (h2 b)⟩

theorem stamped_visible (rs : List Nat) (t : List Nat × Option Nat) (ls : List (Nat × List Nat)) :
    (stamped rs t ls).map (fun x => (x.1, x.2.1)) = visible rs ls := by
  have hdt : ∀ w, IsTime w → IsDeleted w := fun w ⟨t, h⟩ => ⟨_, h⟩
  induction ls generalizing t with
  | nil => rfl
  | cons l ls ih =>
    obtain ⟨o, w⟩ := l
    rw [stamped]
    by_cases h1 : IsTime w
    · rw [if_pos h1, ih, visible, visible, List.filter_cons, if_neg (by simp [hdt w h1])]
    · rw [if_neg h1]
      by_cases h2 : IsDeleted w
      · rw [if_pos h2, ih, visible, visible, List.filter_cons, if_neg (by simp [h2])]
      · rw [if_neg h2]
        by_cases h3 : o ∈ rs
        · rw [if_pos h3, ih, visible, visible, List.filter_cons, if_neg (by simp [h3])]
        · rw [if_neg h3, List.map_cons, ih, visible, visible, List.filter_cons, if_pos (by simp [h2, h3])]

/-- Offsets go up. -/
theorem lines_sorted (b : Bool) (s : List Nat) : ∀ o cur, cur.length ≤ o →
    (lines b o cur s).Pairwise (fun x y => x.1 + x.2.length < y.1) ∧ ∀ x ∈ lines b o cur s, o - cur.length ≤ x.1 := by
  induction s with
  | nil =>
    intro o cur h; rw [lines]; split
    · simp; omega
    · simp
  | cons c r ih =>
    intro o cur h
    rw [lines]
    split
    · obtain ⟨h1, h2⟩ := ih (o + 1) [] (by simp)
      simp only [List.length_nil, Nat.sub_zero] at h2
      split
      · exact ⟨by simpa using h1, fun x hx => by have := h2 x (by simpa using hx); omega⟩
      · refine ⟨?_, ?_⟩
        · rw [List.singleton_append, List.pairwise_cons]
          exact ⟨fun x hx => by have := h2 x hx; simp only; omega, h1⟩
        · intro x hx
          rcases List.mem_cons.1 (by simpa using hx) with rfl | hx
          · simp
          · have := h2 x hx; omega
    · obtain ⟨h1, h2⟩ := ih (o + 1) (cur ++ [c]) (by simp; omega)
      refine ⟨h1, fun x hx => ?_⟩
      have := h2 x hx
      simp at this; omega

/-- Which lines there are. -/
theorem mem_lines (s : List Nat) : ∀ o cur, cur.length ≤ o → (∀ c ∈ cur, ¬ IsBreak c) → ∀ x, x ∈ lines false o cur s ↔
    x.2 ≠ [] ∧ (∀ c ∈ x.2, ¬ IsBreak c) ∧ ∃ pre b post, cur ++ s = pre ++ x.2 ++ b :: post ∧ IsBreak b ∧ x.1 = o - cur.length + pre.length ∧
      (∀ c, pre.getLast? = some c → IsBreak c) := by
  induction s with
  | nil =>
    intro o cur ho hcur x
    simp only [lines, Bool.false_eq_true, false_and, if_false, List.not_mem_nil, List.append_nil, false_iff, not_and, not_exists]
    intro _ _ pre b post h hb
    exact absurd hb (hcur b (by rw [h]; simp))
  | cons c r ih =>
    intro o cur ho hcur x
    rw [lines]
    by_cases hc : IsBreak c
    · rw [if_pos hc]
      have key : x ∈ lines false (o + 1) [] r ↔ _ := ih (o + 1) [] (by simp) (by simp) x
      rw [List.mem_append, key]
      simp only [List.length_nil, Nat.sub_zero, List.nil_append]
      constructor
      · rintro (h | ⟨h1, h2, pre, b, post, h3, h4, h5, h6⟩)
        · by_cases hn : cur = []
          · rw [if_pos hn] at h; simp at h
          · rw [if_neg hn] at h
            obtain rfl : x = (o - cur.length, cur) := by simpa using h
            exact ⟨hn, hcur, [], c, r, by simp, hc, by simp, by simp⟩
        · refine ⟨h1, h2, cur ++ c :: pre, b, post, by rw [h3]; simp, h4, by simp; omega, ?_⟩
          intro d hd
          rw [List.getLast?_append] at hd
          cases hp : pre.getLast? with
          | none =>
            have : pre = [] := List.getLast?_eq_none_iff.1 hp
            rw [this] at hd; simp at hd; rw [← hd]; exact hc
          | some e =>
            have : (c :: pre).getLast? = some e := by
              rw [List.getLast?_cons, hp]; rfl
            rw [this] at hd
            simp at hd
            rw [← hd]; exact h6 e hp
      · rintro ⟨h1, h2, pre, b, post, h3, h4, h5, h6⟩
        have hsplit : cur ++ c :: r = pre ++ (x.2 ++ b :: post) := by rw [h3]; simp
        rcases List.append_eq_append_iff.1 hsplit with ⟨as, e1, e2⟩ | ⟨bs, e1, e2⟩
        · -- the line starts in `c :: r`
          cases as with
          | nil =>
            simp only [List.append_nil, List.nil_append] at e1 e2
            obtain ⟨d, w, hx⟩ := List.exists_cons_of_ne_nil h1
            rw [hx] at e2
            simp only [List.cons_append, List.cons.injEq] at e2
            exact absurd (e2.1 ▸ hc) (h2 d (by rw [hx]; simp))
          | cons d as =>
            simp only [List.cons_append, List.cons.injEq] at e2
            right
            refine ⟨h1, h2, as, b, post, by rw [e2.2]; simp, h4, by rw [h5, e1]; simp; omega, ?_⟩
            intro z hz
            apply h6 z
            rw [e1, List.getLast?_append, List.getLast?_cons, hz]; rfl
        · -- in `cur`
          have hpre : pre = [] := by
            cases hp : pre.getLast? with
            | none => exact List.getLast?_eq_none_iff.1 hp
            | some z =>
              exact absurd (h6 z hp) (hcur z (by rw [e1]; exact List.mem_append_left _ (List.mem_of_getLast? hp)))
          subst hpre
          simp only [List.nil_append] at e1 e2
          subst e1
          left
          rcases List.append_eq_append_iff.1 e2 with ⟨as, f1, f2⟩ | ⟨as, f1, f2⟩
          · cases as with
            | nil =>
              simp only [List.append_nil] at f1
              have hn : cur ≠ [] := by rw [f1]; exact h1
              rw [if_neg hn]
              simp only [List.mem_singleton]
              exact Prod.ext (by simp [h5]) f1.symm
            | cons d as =>
              exfalso
              simp only [List.cons_append, List.cons.injEq] at f2
              exact hcur b (by rw [f1, f2.1]; simp) h4
          · cases as with
            | nil =>
              simp only [List.append_nil] at f1
              have hn : cur ≠ [] := by rw [← f1]; exact h1
              rw [if_neg hn]
              simp only [List.mem_singleton]
              exact Prod.ext (by simp [h5]) f1
            | cons d as =>
              exfalso
              simp only [List.cons_append, List.cons.injEq] at f2
              exact h2 d (by rw [f1]; simp) (f2.1 ▸ hc)
    · rw [if_neg hc, ih (o + 1) (cur ++ [c]) (by simp; omega) (by
        intro d hd
        rcases List.mem_append.1 hd with hd | hd
        · exact hcur d hd
        · simp at hd; rw [hd]; exact hc)]
      have : o + 1 - (cur ++ [c]).length = o - cur.length := by simp
      rw [this]
      simp

/-- Lines of two parts. -/
theorem lines_append (b : Bool) (f : List Nat) : ∀ o cur s, Complete f → (f = [] → cur = []) →
    lines b o cur (f ++ s) = lines false o cur f ++ lines b (o + f.length) [] s := by
  induction f with
  | nil => intro o cur s _ hn; rw [hn rfl]; simp [lines]
  | cons c r ih =>
    intro o cur s h hn
    have hr : Complete r := h.suffix (u := [c])
    rw [List.cons_append, lines, lines]
    have hl : o + 1 + r.length = o + (c :: r).length := by simp; omega
    split
    · rw [ih (o + 1) [] s hr (fun _ => rfl), hl, List.append_assoc]
    · rename_i hc
      rw [ih (o + 1) _ s hr (fun hr' => absurd (h c (by rw [hr']; rfl)) hc), hl]

end Clink.Hist
