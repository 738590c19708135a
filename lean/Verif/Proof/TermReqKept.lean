import Verif.Proof.TermReqAsk

/-!
Without an answer nothing is lost.
-/

namespace Clink.TermReq
open Spec Clink.TermIn Clink.TermIn.Spec

/-- Every record gives its bytes by itself. -/
inductive Each (g : Cfg) : List Record → List Nat → Prop
  | nil : Each g [] []
  | cons {r : Record} {rs : List Record} {b bs : List Nat} (h : Gives g 0 [r] b) (hr : Each g rs bs) : Each g (r :: rs) (b ++ bs)

theorem gives_append {g : Cfg} {l : Nat} {a c : List Record} {b1 b2 : List Nat} (h : Gives g l a b1) (h2 : Gives g 0 c b2) :
    Gives g l (a ++ c) (b1 ++ b2) := by
  induction h with
  | nil => exact h2
  | quiet hq _ ih => exact .quiet hq ih
  | seq ha _ ih => rw [List.append_assoc]; exact .seq ha ih
  | chars ha hu _ ih => rw [List.append_assoc]; exact .chars ha hu ih
  | lead ha hh _ ih => exact .lead ha hh ih
  | trail ha hh ht _ ih => rw [List.append_assoc]; exact .trail ha hh ht ih
  | exit ha _ ih => rw [List.append_assoc]; exact .exit ha ih

theorem each_gives {g : Cfg} {rs : List Record} {bs : List Nat} (h : Each g rs bs) : Gives g 0 rs bs := by
  induction h with
  | nil => exact .nil
  | cons h _ ih => exact gives_append h ih

theorem each_append {g : Cfg} {a c : List Record} {b1 b2 : List Nat} (h : Each g a b1) (h2 : Each g c b2) : Each g (a ++ c) (b1 ++ b2) := by
  induction h with
  | nil => exact h2
  | cons h _ ih => rw [List.append_assoc]; exact .cons h ih

theorem each_split {g : Cfg} {a c : List Record} {b : List Nat} (h : Each g (a ++ c) b) : ∃ b1 b2, b = b1 ++ b2 ∧ Each g a b1 ∧ Each g c b2 := by
  induction a generalizing b with
  | nil => exact ⟨[], b, rfl, .nil, h⟩
  | cons r a ih =>
    cases h with
    | cons h hr =>
      obtain ⟨b1, b2, e, h1, h2⟩ := ih hr
      exact ⟨_, b2, by rw [e, List.append_assoc], .cons h h1, h2⟩

theorem alone_chars {g : Cfg} {k : Key} {hi : Nat} (h : Alone g (.key k)) (ha : act g false true k = .chars [hi]) : ¬ Lead hi := by
  obtain ⟨b, hb⟩ := h
  intro hh
  have h1 := hh.1
  have h2 := hh.2
  generalize hl : 0 = l at hb
  generalize hrr : [Record.key k] = rr at hb
  cases hb with
  | nil => cases hrr
  | quiet hq hr =>
    injection hrr with e1 e2; subst e1
    rw [show act g false true k = .none from hq] at ha; cases ha
  | seq hs hr =>
    injection hrr with e1 e2; injection e1 with e1; subst e1
    rw [hs] at ha; cases ha
  | chars hs hu hr =>
    injection hrr with e1 e2; injection e1 with e1; subst e1
    rw [hs] at ha; injection ha with ha; subst ha
    have := (hu hi (by simp)).2
    omega
  | @lead k' hi' rs bs hs hh' hr =>
    injection hrr with e1 e2; subst e2
    have := hh'.1
    cases hr with
    | nil => omega
  | trail hs hh' ht hr => have := hh'.1; omega
  | exit hs hr =>
    injection hrr with e1 e2; injection e1 with e1; subst e1
    rw [hs] at ha; cases ha

theorem alone_whole {g : Cfg} {r : Record} (h : Alone g r) : Whole g r := by
  rintro k hi rfl ha
  exact alone_chars h ha

theorem gives_each {g : Cfg} : ∀ {rs : List Record} {bs : List Nat}, Gives g 0 rs bs → (∀ r ∈ rs, Alone g r) → Each g rs bs := by
  intro rs
  induction rs with
  | nil =>
    intro bs h _
    cases h
    exact .nil
  | cons r rs ih =>
    intro bs h ha
    have h0 := ha r (by simp)
    have hrest : ∀ {bs}, Gives g 0 rs bs → Each g rs bs := fun hh => ih hh (fun x hx => ha x (by simp [hx]))
    generalize hl : 0 = l at h
    generalize hrr : r :: rs = rr at h
    cases h with
    | nil => cases hrr
    | quiet hq hr =>
      injection hrr with e1 e2; subst e1; subst e2; subst hl
      exact Each.cons (b := []) (.quiet hq .nil) (hrest hr)
    | seq hs hr =>
      injection hrr with e1 e2; subst e1; subst e2
      exact .cons (by have := Gives.seq hs (Gives.nil (g := g)); rwa [List.append_nil] at this) (hrest hr)
    | chars hs hu hr =>
      injection hrr with e1 e2; subst e1; subst e2
      exact .cons (by have := Gives.chars hs hu (Gives.nil (g := g)); rwa [List.append_nil] at this) (hrest hr)
    | lead hs hh hr =>
      injection hrr with e1 e2; subst e1; subst e2
      exact absurd hh (alone_chars h0 hs)
    | trail hs hh ht hr => have := hh.1; omega
    | exit hs hr =>
      injection hrr with e1 e2; subst e1; subst e2
      exact .cons (by have := Gives.exit hs (Gives.nil (g := g)); rwa [List.append_nil] at this) (hrest hr)

theorem kept_drop {g : Cfg} (hp : Plain g.keys) {P D Q : List Record} {b : List Nat} (hi : ∀ r ∈ D, Idle g r) (he : ∀ r ∈ D, PlainEsc r)
    (h : Each g (P ++ (D ++ Q)) b) : Each g (P ++ Q) b := by
  obtain ⟨b1, b2, e, h1, h2⟩ := each_split h
  obtain ⟨b3, b4, e', h3, h4⟩ := each_split h2
  have : b3 = [] := by
    clear h h1 h2 h4 e e'
    induction h3 with
    | nil => rfl
    | @cons r rs b bs hg _ ih =>
      obtain ⟨s, hs, hf⟩ := hi r (by simp)
      obtain ⟨c, _, h5, _⟩ := alone_reads hp hg (he r (by simp))
      rw [h5 s hs hf, ih (fun x hx => hi x (by simp [hx])) (fun x hx => he x (by simp [hx]))]
      rfl
  rw [e, e', this, List.nil_append]
  exact each_append h1 h4

theorem nextCode_ne {s : Ecma48.State} {n : Nat} {l : List Nat} {p : Ecma48.Piece} {x : Ecma48.State × Nat × List Nat}
    (h : Ecma48.nextCode s n l = (some p, x)) : p.text ≠ [] := by
  unfold Ecma48.nextCode at h
  dsimp only at h
  generalize Ecma48.loop l { s := s, iter := l, start := l, nested := n } = r at h
  by_cases hd : r.1 = true
  · rw [if_pos hd] at h
    have h1 := congrArg Prod.fst h
    dsimp only at h1
    generalize (if r.2.s.st ≠ Ecma48.St.char then r.2.s.buffer
      else List.take ((r.2.start.length - r.2.iter.length) % 65536) r.2.start) = tx at h1
    by_cases ht : tx = []
    · rw [if_pos ht] at h1; cases h1
    · rw [if_neg ht] at h1
      injection h1 with h1
      rw [← h1]; exact ht
  · rw [if_neg hd] at h
    have h1 := congrArg Prod.fst h
    cases h1

theorem findCode_ne (pre : List Nat) (fin : Option Nat) (n : Nat) (s : Ecma48.State) (m : Nat) (l : List Nat) :
    ∀ r, findCode pre fin n s m l = some r → r.1 ≠ [] := by
  fun_induction findCode pre fin n s m l with
  | case1 => intro r h; cases h
  | case2 s m l p s' n' l' he hc =>
    intro r h
    injection h with h
    rw [← h]
    exact nextCode_ne he
  | case3 s m l p s' n' l' he hc hlt ih => exact ih
  | case4 => intro r h; cases h

theorem ask_kept {g : Cfg} (hp : Plain g.keys) {pre : List Nat} {fin : Option Nat} {old : Nat} {time : Nat → Nat} :
    ∀ (n i : Nat) (s : St) (input : List Nat) (cors : List Cor), Asking s → One s → (∀ r ∈ s.pending ++ s.queue, Alone g r ∧ PlainEsc r) →
      (ask g pre fin old time n i s input cors).2 = [] → ∀ b, Each g (all s) b → Each g (all (ask g pre fin old time n i s input cors).1) b := by
  intro n
  induction n with
  | zero => intro i s input cors _ _ _ _ b h; exact h
  | succ n ih =>
    intro i s input cors h ho hr hn b hb
    have hrd : ∀ r ∈ s.queue.take (time i), ∃ c, Reads g r c := by
      intro r hrr
      obtain ⟨⟨b, h1⟩, h2⟩ := hr r (List.mem_append_right _ (List.mem_of_mem_take hrr))
      obtain ⟨c, hc, _⟩ := alone_reads hp h1 h2
      exact ⟨c, hc⟩
    obtain ⟨D, hf⟩ := available_found h ho (time i) hrd
    have hpr := (available_sub g s (time i)).1
    have hall := hf.all
    have hmem : ∀ r ∈ D ++ ((available g s (time i)).1.pending ++ (available g s (time i)).1.queue), Alone g r ∧ PlainEsc r := by
      rw [← hall]; exact hr
    have hk : Each g (all (available g s (time i)).1) b := by
      unfold all at hb ⊢
      rw [hpr]
      rw [hall] at hb
      exact kept_drop hp hf.idle (fun r hrr => (hmem r (List.mem_append_left _ hrr)).2) hb
    obtain ⟨a, aok⟩ : ∃ a, available g s (time i) = a := ⟨_, rfl⟩
    obtain ⟨t, yes⟩ := a
    by_cases hc : yes = true ∧ old + t.processed.length < 16384
    · obtain ⟨hy, hl⟩ := hc
      subst hy
      have hf' := hf
      have hpe := hf.yes.1 (by rw [aok])
      rcases hf.one with h1 | ⟨r, h1, h2⟩
      · exact absurd h1 hpe
      have hta := hf.asking
      rw [aok] at h1 hta hk hmem
      have hrm : r ∈ D ++ (t.pending ++ t.queue) := by rw [h1]; simp
      obtain ⟨⟨b0, a1⟩, a2⟩ := hmem r hrm
      obtain ⟨c, hcr, _⟩ := alone_reads hp a1 a2
      obtain ⟨u, u1, u2, u3, u4, e⟩ := ask_round (pre := pre) (fin := fin) (n := n) (input := input) (cors := cors) aok hta h1 h2 hcr hl
      have hu : Each g (all u) b := by
        have : all u = all t := by
          unfold all
          rw [u2, u3, u4, h1]; simp
        rw [this]; exact hk
      have hum : ∀ r ∈ u.pending ++ u.queue, Alone g r ∧ PlainEsc r := by
        rw [u2, u3]
        intro x hx
        exact hmem x (by simp at hx; simp [hx])
      rw [e] at hn ⊢
      dsimp only at hn ⊢
      split at hn
      · rename_i hcc
        rw [if_pos hcc]
        split at hn
        · rename_i text bb ee hfc
          exact absurd hn (findCode_ne _ _ _ _ _ _ _ hfc)
        · rename_i hfc
          exact ih _ _ _ _ u1 (Or.inl u2) hum hn b hu
      · rename_i hcc
        rw [if_neg hcc]
        exact ih _ _ _ _ u1 (Or.inl u2) hum hn b hu
    · have e : ask g pre fin old time (n + 1) i s input cors = (t, []) := by
        rw [ask]
        dsimp only
        rw [aok]
        dsimp only
        rw [if_neg hc]
      rw [e]
      rw [aok] at hk
      exact hk

/-- The invariant after a request, if all records that remain are there. -/
theorem request_inv {g : Cfg} {s : St} {b0 : List Nat} (h : Inv g s b0) (hq : s.queue = []) {X : List Record} (ha : ∀ r ∈ X, Alone g r)
    {u : St} (h1 : u.buf = s.buf ∧ u.head = s.head ∧ u.count = s.count ∧ u.lead = s.lead ∧ u.sending = false ∧ u.force = false)
    {Y Z : List Record} (hp : u.pending = s.pending ++ Y) (hz : u.queue = Z) (hy : ∀ r ∈ Y, r ∈ X) {b : List Nat} (hb : Gives g 0 (Y ++ Z) b) : Inv g u (b0 ++ b) := by
  obtain ⟨a1, a2, a3, a4, a5, a6⟩ := h1
  obtain ⟨later, hg, he⟩ := h.gives
  have hheld : u.held = s.held := by unfold St.held St.chord; rw [a1, a2, a3]
  refine ⟨⟨⟨by rw [a1]; exact h.ok.len, by rw [a2]; exact h.ok.head, by rw [a3]; exact h.ok.1.count⟩, a5, a6⟩, ?_, later ++ b, ?_, ?_⟩
  · rw [hp]
    intro r hr
    rcases List.mem_append.1 hr with hr | hr
    · exact h.whole r hr
    · exact alone_whole (ha r (hy r hr))
  · rw [a4, hp, hz, List.append_assoc]
    rw [hq, List.append_nil] at hg
    exact gives_append hg hb
  · rw [hheld, he, List.append_assoc]

theorem request_fields (g : Cfg) (pre : List Nat) (fin : Option Nat) (first : Nat) (time : Nat → Nat) (s : St) (hs : s.sending = false ∧ s.force = false) :
    (request g pre fin first time s).1.buf = s.buf ∧ (request g pre fin first time s).1.head = s.head ∧ (request g pre fin first time s).1.count = s.count ∧
      (request g pre fin first time s).1.lead = s.lead ∧ (request g pre fin first time s).1.sending = false ∧ (request g pre fin first time s).1.force = false := by
  unfold request
  split
  · exact ⟨rfl, rfl, rfl, rfl, hs.1, hs.2⟩
  · exact ⟨rfl, rfl, rfl, rfl, rfl, rfl⟩

theorem start_asking {s : St} (h : s.Ring) :
    Asking { s with pending := [], processed := [], head := 0, count := 0, lead := 0, sending := true } :=
  ⟨⟨h.len, by show 0 < 16; omega, by show 0 ≤ 16; omega⟩, rfl, rfl, rfl⟩

theorem request_kept {g : Cfg} (hp : Plain g.keys) {pre : List Nat} {fin : Option Nat} {first : Nat} {time : Nat → Nat} {s : St} (hr : s.Ring)
    (hx : ∀ r ∈ s.queue, Alone g r ∧ PlainEsc r) (hn : (request g pre fin first time s).2 = []) {b : List Nat} (hb : Each g s.queue b) :
    ∃ Y, (request g pre fin first time s).1.pending = s.pending ++ Y ∧ Each g (Y ++ (request g pre fin first time s).1.queue) b := by
  unfold request at hn ⊢
  split
  · exact ⟨[], by simp, hb⟩
  · rename_i hlt
    rw [if_neg hlt] at hn
    have hask := start_asking hr
    generalize hs1 : ({ s with pending := [], processed := [], head := 0, count := 0, lead := 0, sending := true } : St) = s1 at hask hn ⊢
    have e1 : s1.pending = [] := by rw [← hs1]
    have e2 : s1.queue = s.queue := by rw [← hs1]
    have e3 : s1.processed = [] := by rw [← hs1]
    dsimp only at hn ⊢
    have hrd : ∀ r ∈ s1.queue.take first, ∃ c, Reads g r c := by
      intro r hrr
      rw [e2] at hrr
      obtain ⟨⟨b, h1⟩, h2⟩ := hx r (List.mem_of_mem_take hrr)
      obtain ⟨c, hc, _⟩ := alone_reads hp h1 h2
      exact ⟨c, hc⟩
    obtain ⟨D, hf⟩ := available_found hask (Or.inl e1) first hrd
    have hpr := (available_sub g s1 first).1
    have hall := hf.all
    rw [e1, e2, List.nil_append] at hall
    have hk : Each g (all (available g s1 first).1) b := by
      unfold all
      rw [hpr, e3, List.nil_append]
      rw [hall] at hb
      exact kept_drop (P := []) hp hf.idle (fun r hrr => (hx r (by rw [hall]; exact List.mem_append_left _ hrr)).2) hb
    have ha' := hf.asking
    have ho' := hf.one
    have hmem : ∀ r ∈ (available g s1 first).1.pending ++ (available g s1 first).1.queue, Alone g r ∧ PlainEsc r :=
      fun r hrr => hx r (by rw [hall]; exact List.mem_append_right _ hrr)
    generalize available g s1 first = a at *
    by_cases hy : a.2 = true
    · rw [if_pos hy] at hn ⊢
      have := ask_kept hp (s.queue.length + 1) 0 { a.1 with force := true } [] [] ⟨⟨ha'.len, ha'.head, ha'.1.count⟩, ha'.empty, ha'.lead, ha'.sending⟩ ho' hmem hn b hk
      refine ⟨_, List.append_assoc _ _ _, ?_⟩
      rw [List.append_assoc]
      exact this
    · rw [if_neg hy]
      refine ⟨_, List.append_assoc _ _ _, ?_⟩
      rw [List.append_assoc]
      exact hk

end Clink.TermReq
