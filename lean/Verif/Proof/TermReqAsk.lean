import Verif.Proof.TermReqRec

/-!
The loop of a request: which records it reads, and what it does with them.
-/

namespace Clink.TermReq
open Spec Clink.TermIn Clink.TermIn.Spec

/-! ## Records stay in order, whatever happens -/

theorem puts_same (l : List Nat) (s : St) : Same s (l.foldl St.put s) := by
  induction l generalizing s with
  | nil => exact Same.refl s
  | cons b l ih => exact (put_same s b).1.trans (ih _)

theorem pushVal_same (s : St) (v : Nat) : Same s (pushVal s v) := by
  unfold pushVal
  have h0 : Same s { s with lead := 0 } := ⟨rfl, rfl, rfl, rfl, rfl, rfl, rfl⟩
  split
  · exact h0.trans (put_same _ v).1
  · split
    · exact ⟨rfl, rfl, rfl, rfl, rfl, rfl, rfl⟩
    · exact h0.trans (puts_same _ _)

theorem pushVals_same (l : List Nat) (s : St) : Same s (l.foldl pushVal s) := by
  induction l generalizing s with
  | nil => exact Same.refl s
  | cons b l ih => exact (pushVal_same s b).trans (ih _)

theorem apply_same (s : St) (a : Act) : Same s (s.apply a) := by
  cases a with
  | none => exact Same.refl s
  | seq l => exact Same.trans (t := { s with lead := 0 }) ⟨rfl, rfl, rfl, rfl, rfl, rfl, rfl⟩ (puts_same l _)
  | chars l => exact pushVals_same l s
  | exit => exact ⟨rfl, rfl, rfl, rfl, rfl, rfl, rfl⟩

theorem filter_same (g : Cfg) (s : St) (n : Nat) : Same s (filterUnbound g s n) := by
  unfold filterUnbound
  have h0 : Same s { s with count := n } := ⟨rfl, rfl, rfl, rfl, rfl, rfl, rfl⟩
  split
  · exact Same.refl s
  · split
    · exact Same.refl s
    · dsimp only
      split
      · exact h0.trans (pushVals_same _ _)
      · split
        · exact Same.refl s
        · exact h0

theorem mouse_keeps (g : Cfg) (s : St) (m : Mouse) : Keeps s (processMouse g s m) := by
  unfold processMouse
  have := apply_same { s with prevLeft := m.left, prevRight := m.right } (mouseAct g s.prevLeft s.prevRight m)
  exact ⟨this.pending, this.processed, this.queue, this.sending, this.force⟩

theorem peek_keeps (g : Cfg) (s : St) (r : Record) : Keeps s (peekRecord g s r).1 := by
  cases r with
  | key k =>
    have := apply_same s (act g (s.force || s.sending) (s.count = 0) k)
    exact ⟨this.pending, this.processed, this.queue, this.sending, this.force⟩
  | mouse m =>
    have := mouse_keeps g s m
    exact ⟨this.pending, this.processed, this.queue, this.sending, this.force⟩
  | size c => exact Keeps.refl s
  | other => exact Keeps.refl s

theorem process_keeps (g : Cfg) (s : St) (r : Record) : (processRecord g s r).1.pending = s.pending ∧ (processRecord g s r).1.queue = s.queue ∧
    ((processRecord g s r).1.processed = s.processed ∨ (processRecord g s r).1.processed = s.processed ++ [r]) := by
  have key : ∀ t : St, Keeps s t → (if t.sending = true then { t with processed := t.processed ++ [r] } else t).pending = s.pending ∧
      (if t.sending = true then { t with processed := t.processed ++ [r] } else t).queue = s.queue ∧
      ((if t.sending = true then { t with processed := t.processed ++ [r] } else t).processed = s.processed ∨
        (if t.sending = true then { t with processed := t.processed ++ [r] } else t).processed = s.processed ++ [r]) := by
    intro t h
    split
    · exact ⟨h.pending, h.queue, Or.inr (by show t.processed ++ _ = _; rw [h.processed])⟩
    · exact ⟨h.pending, h.queue, Or.inl h.processed⟩
  cases r with
  | key k =>
    refine key (filterUnbound g (processKey g s k) s.count) ?_
    have h1 := apply_same s (act g (s.force || s.sending) (s.count = 0) k)
    exact same_keeps (h1.trans (filter_same g _ _))
  | mouse m => exact key _ (mouse_keeps g s m)
  | size c => exact key s (Keeps.refl s)
  | other => exact ⟨rfl, rfl, Or.inl rfl⟩

/-- All records, in order. -/
def all (s : St) : List Record := s.processed ++ (s.pending ++ s.queue)

theorem peekLoop_sub (g : Cfg) : ∀ (now : List Record) (s : St) (later : List Record), s.pending = [] →
    (peekLoop g s now later).processed = s.processed ∧
      ((peekLoop g s now later).pending ++ (peekLoop g s now later).queue).Sublist (now ++ later) := by
  intro now
  induction now with
  | nil =>
    intro s later hp
    refine ⟨rfl, ?_⟩
    show (s.pending ++ later).Sublist _
    rw [hp]; exact List.Sublist.refl _
  | cons r q ih =>
    intro s later hp
    have hk := peek_keeps g s r
    unfold peekLoop
    split
    · exact ⟨hk.processed, List.Sublist.refl _⟩
    · obtain ⟨a, b⟩ := ih (peekRecord g s r).1 later (hk.pending.trans hp)
      exact ⟨a.trans hk.processed, b.trans (List.sublist_cons_self _ _)⟩

theorem available_sub (g : Cfg) (s : St) (n : Nat) : (available g s n).1.processed = s.processed ∧ (all (available g s n).1).Sublist (all s) := by
  unfold available
  split
  · exact ⟨rfl, List.Sublist.refl _⟩
  · rename_i h
    have hp : s.pending = [] := Classical.byContradiction fun hh => h (Or.inr hh)
    obtain ⟨a, b⟩ := peekLoop_sub g (s.queue.take n) s (s.queue.drop n) hp
    refine ⟨a, ?_⟩
    unfold all
    dsimp only
    rw [a, hp]
    rw [List.take_append_drop] at b
    exact List.Sublist.append_left (by simpa using b) _

theorem takePending_sub (g : Cfg) (s : St) : (all (takePending g s)).Sublist (all s) := by
  unfold takePending
  split
  · rename_i r p hpe
    obtain ⟨a, b, c⟩ := process_keeps g { s with pending := p } r
    unfold all
    rw [a, b, hpe]
    rcases c with c | c
    · rw [c]
      exact List.Sublist.append_left (List.sublist_cons_self _ _) _
    · rw [c]
      show ((s.processed ++ [r]) ++ (p ++ s.queue)).Sublist (s.processed ++ (r :: p ++ s.queue))
      rw [List.append_assoc]
      exact List.Sublist.refl _
  · exact List.Sublist.refl _

theorem drain_same : ∀ (n : Nat) (s : St), Same s (drain n s).1 := by
  intro n
  induction n with
  | zero => exact fun s => Same.refl s
  | succ n ih =>
    intro s
    unfold drain
    split
    · exact Same.refl s
    · rename_i h
      refine Same.trans ?_ (ih _)
      unfold pop
      rw [if_neg h]
      exact ⟨rfl, rfl, rfl, rfl, rfl, rfl, rfl⟩

theorem all_same {s t : St} (h : Same s t) : all t = all s := by unfold all; rw [h.processed, h.pending, h.queue]

theorem erase_sub (cors : List Cor) (l : List Record) (b e : Nat) : (erase cors l b e).Sublist l := by
  unfold erase
  split
  · exact List.Sublist.refl _
  · dsimp only
    generalize (cors.getD _ _).record = k
    generalize List.length _ = n
    have h1 : (l.drop (k + n)).Sublist (l.drop k) := by rw [← List.drop_drop]; exact List.drop_sublist _ _
    have := List.Sublist.append_left h1 (l.take k)
    rwa [List.take_append_drop] at this

theorem ask_sub (g : Cfg) (pre : List Nat) (fin : Option Nat) (old : Nat) (time : Nat → Nat) :
    ∀ (n i : Nat) (s : St) (input : List Nat) (cors : List Cor), (all (ask g pre fin old time n i s input cors).1).Sublist (all s) := by
  intro n
  induction n with
  | zero => intro i s input cors; exact List.Sublist.refl _
  | succ n ih =>
    intro i s input cors
    have h1 := (available_sub g s (time i)).2
    have h2 := (takePending_sub g (available g s (time i)).1).trans h1
    have h3 : (all (drain 16 (takePending g (available g s (time i)).1)).1).Sublist (all s) := by
      rw [all_same (drain_same 16 _)]; exact h2
    unfold ask
    dsimp only
    split
    · split
      · split
        · refine List.Sublist.trans ?_ h3
          unfold all
          exact List.Sublist.append_right (erase_sub _ _ _ _) _
        · exact (ih _ _ _ _).trans h3
      · exact (ih _ _ _ _).trans h3
    · exact h1

theorem request_sub (g : Cfg) (pre : List Nat) (fin : Option Nat) (first : Nat) (time : Nat → Nat) (s : St) :
    ((request g pre fin first time s).1.pending ++ (request g pre fin first time s).1.queue).Sublist (s.pending ++ s.queue) := by
  unfold request
  split
  · exact List.Sublist.refl _
  · dsimp only
    rw [List.append_assoc, List.append_assoc]
    refine List.Sublist.append_left ?_ _
    have h1 := (available_sub g { s with pending := [], processed := [], head := 0, count := 0, lead := 0, sending := true } first).2
    split
    · exact List.Sublist.trans (ask_sub g pre fin s.pending.length time (s.queue.length + 1) 0 _ [] []) h1
    · exact h1

/-! ## What is looked at -/

/-- The record gave nothing when it was looked at. -/
def Idle (g : Cfg) (r : Record) : Prop := ∃ s, Asking s ∧ (peekRecord g s r).2.1 = false

theorem peekLoop_asking {g : Cfg} : ∀ (now : List Record) (s : St) (later : List Record), Asking s → s.pending = [] → (∀ r ∈ now, ∃ c, Reads g r c) →
    Asking (peekLoop g s now later) ∧ ∃ D, (∀ r ∈ D, Idle g r) ∧
      ((now = D ∧ (peekLoop g s now later).pending = [] ∧ (peekLoop g s now later).queue = later) ∨
       ∃ r q, now = D ++ r :: q ∧ r ≠ .other ∧ (peekLoop g s now later).pending = [r] ∧ (peekLoop g s now later).queue = q ++ later) := by
  intro now
  induction now with
  | nil =>
    intro s later h hp _
    exact ⟨⟨⟨h.len, h.head, h.1.count⟩, h.empty, h.lead, h.sending⟩, [], by simp, Or.inl ⟨rfl, hp, rfl⟩⟩
  | cons r q ih =>
    intro s later h hp hr
    obtain ⟨c, hc⟩ := hr r (by simp)
    obtain ⟨l1, l2⟩ := hc.look s h
    unfold peekLoop
    by_cases hb : (peekRecord g s r).2.1 = true
    · rw [if_pos hb]
      exact ⟨⟨⟨l1.len, l1.head, l1.1.count⟩, l1.empty, l1.lead, l1.sending⟩, [], by simp, Or.inr ⟨r, q, rfl, hc.some s hb, rfl, rfl⟩⟩
    · rw [if_neg hb]
      obtain ⟨a, D, d1, d2⟩ := ih (peekRecord g s r).1 later l1 (l2.pending.trans hp) (fun x hx => hr x (by simp [hx]))
      refine ⟨a, r :: D, ?_, ?_⟩
      · intro x hx
        rcases List.mem_cons.1 hx with rfl | hx
        · exact ⟨s, h, by simpa using hb⟩
        · exact d1 x hx
      · rcases d2 with ⟨e1, e2, e3⟩ | ⟨r', q', e1, e2, e3, e4⟩
        · exact Or.inl ⟨by rw [e1], e2, e3⟩
        · exact Or.inr ⟨r', q', by rw [e1]; rfl, e2, e3, e4⟩

/-- At most one record waits. -/
def One (s : St) : Prop := s.pending = [] ∨ ∃ r, s.pending = [r] ∧ r ≠ .other

/-- What `available` finds. -/
structure Found (g : Cfg) (s : St) (n : Nat) (D : List Record) : Prop where
  asking : Asking (available g s n).1
  one : One (available g s n).1
  all : s.pending ++ s.queue = D ++ ((available g s n).1.pending ++ (available g s n).1.queue)
  idle : ∀ r ∈ D, Idle g r
  yes : (available g s n).2 = true ↔ (available g s n).1.pending ≠ []
  time : s.queue.length ≤ n → (available g s n).1.pending = [] → (available g s n).1.queue = []

theorem available_found {g : Cfg} {s : St} (h : Asking s) (ho : One s) (n : Nat) (hr : ∀ r ∈ s.queue.take n, ∃ c, Reads g r c) :
    ∃ D, Found g s n D := by
  by_cases hp : s.pending = []
  · have he : available g s n = (peekLoop g s (s.queue.take n) (s.queue.drop n), decide ((peekLoop g s (s.queue.take n) (s.queue.drop n)).pending ≠ [])) := by
      unfold available
      rw [if_neg (by rw [h.empty, hp]; simp)]
    obtain ⟨a, D, d1, d2⟩ := peekLoop_asking (s.queue.take n) s (s.queue.drop n) h hp hr
    refine ⟨D, ?_, ?_, ?_, d1, ?_, ?_⟩ <;> rw [he]
    · exact a
    · rcases d2 with ⟨e1, e2, e3⟩ | ⟨r', q', e1, e2, e3, e4⟩
      · exact Or.inl e2
      · exact Or.inr ⟨r', e3, e2⟩
    · dsimp only
      rw [hp, List.nil_append]
      rcases d2 with ⟨e1, e2, e3⟩ | ⟨r', q', e1, e2, e3, e4⟩
      · rw [e2, e3, ← e1, List.nil_append, List.take_append_drop]
      · rw [e3, e4]
        have : D ++ r' :: q' ++ s.queue.drop n = s.queue := by rw [← e1, List.take_append_drop]
        exact this.symm.trans (by simp)
    · simp
    · dsimp only
      intro hn hpe
      rcases d2 with ⟨e1, e2, e3⟩ | ⟨r', q', e1, e2, e3, e4⟩
      · rw [e3, List.drop_of_length_le hn]
      · rw [e3] at hpe; cases hpe
  · have he : available g s n = (s, true) := by
      unfold available
      rw [if_pos (Or.inr hp)]
    refine ⟨[], ?_, ?_, ?_, by simp, ?_, ?_⟩ <;> rw [he]
    · exact h
    · exact ho
    · rfl
    · simp [hp]
    · exact fun _ hh => absurd hh hp

/-- One round. -/
theorem ask_round {g : Cfg} {pre : List Nat} {fin : Option Nat} {old : Nat} {time : Nat → Nat} {n i : Nat} {s : St} {input : List Nat} {cors : List Cor}
    {t : St} (ht : available g s (time i) = (t, true)) (ha : Asking t) {r : Record} (hp : t.pending = [r]) (hr : r ≠ .other) {c : List Nat} (hc : Reads g r c)
    (hl : old + t.processed.length < 16384) :
    ∃ u, Asking u ∧ u.pending = [] ∧ u.queue = t.queue ∧ u.processed = t.processed ++ [r] ∧
      ask g pre fin old time (n + 1) i s input cors =
        let cors' := cors ++ [⟨t.processed.length, input.length % 65536, ((input ++ c).length - input.length % 65536) % 65536⟩]
        if input ++ c ≠ [] ∧ isFinal fin (input ++ c) then
          match findCode pre fin (input ++ c).length {} 0 (input ++ c) with
          | some (text, b, e) => ({ u with processed := erase cors' u.processed b e }, text)
          | none => ask g pre fin old time n (i + 1) u (input ++ c) cors'
        else ask g pre fin old time n (i + 1) u (input ++ c) cors' := by
  have he : takePending g t = (processRecord g { t with pending := [] } r).1 := by unfold takePending; rw [hp]
  have hk := hc.take { t with pending := [] } ⟨⟨ha.len, ha.head, ha.1.count⟩, ha.empty, ha.lead, ha.sending⟩ hr
  rw [← he] at hk
  obtain ⟨d1, d2, d3, d4, d5⟩ := drain_all 16 (takePending g t) hk.ring hk.ring.count
  refine ⟨(drain 16 (takePending g t)).1, ⟨d2, d3, d5.trans hk.lead, (d4.sending.trans hk.sending).trans ha.sending⟩, d4.pending.trans hk.pending,
    d4.queue.trans hk.queue, d4.processed.trans hk.processed, ?_⟩
  rw [ask]
  dsimp only
  rw [ht]
  dsimp only
  rw [if_pos ⟨rfl, hl⟩, d1, hk.held]
  rfl

end Clink.TermReq
