import Verif.Proof.TermInRun

/-!
What keys give: text, cursor keys, function keys, ctrl with letters.  And that everything is read in the end.
-/

namespace Clink.TermIn
open Spec Clink.Utf

theorem act_types {g : Cfg} {k : Key} {u : Nat} (h : Types k u) :
    act g false true k = .chars [u] ∨ (u = 32 ∧ act g false true k = .seq [32]) := by
  obtain ⟨hd, hch, hpr, hvk, hsp, hfl⟩ := h
  subst hch
  unfold act
  rw [if_neg (by simp [hd])]
  by_cases h18 : k.vk = 18
  · rw [if_pos h18, if_pos (by omega)]; exact Or.inl rfl
  rw [if_neg h18, if_neg (by omega), if_neg (fun hh => by have := hh.1; omega)]
  unfold actKey
  have hsub : ((k.flags.lalt && !k.flags.ralt) && k.flags.ctrl && k.ch != 0) = false := by
    rcases hfl with ⟨hc, _⟩ | ⟨_, hr⟩
    · simp [hc]
    · simp [hr]
  simp only [hsub, Bool.false_and, Bool.false_eq_true, if_false]
  rw [if_neg (fun hh => hvk.2.1 hh.1)]
  by_cases h32 : k.vk = 32 ∧ (k.ch = 32 ∨ k.ch = 0) ∧ True
  · rw [if_pos h32]
    have hu : k.ch = 32 := by rcases h32.2.1 with e | e <;> omega
    have hs := hsp h32.1 hu
    have ha : k.flags.alt = false := by
      rcases hfl with ⟨_, ha⟩ | ⟨hc, _⟩
      · exact ha
      · rw [hs.2] at hc; cases hc
    have hi : keymodIndex k.flags = 0 := by unfold keymodIndex; rw [hs.1, hs.2, ha]; rfl
    rw [hi]
    exact Or.inr ⟨hu, rfl⟩
  rw [if_neg h32, if_neg (fun hh => hvk.2.2.1 hh.1)]
  generalize hf : (if k.ch > 31 ∧ k.ch ≠ 127 ∧ k.flags.ctrl = true then
    ({ shift := k.flags.shift, other := k.flags.other } : Flags) else k.flags) = f
  have hf2 : f.ctrl = false ∧ f.alt = false := by
    subst hf
    by_cases hc : k.flags.ctrl = true
    · rw [if_pos ⟨by omega, hpr.2, hc⟩]; exact ⟨rfl, rfl⟩
    · rw [if_neg (fun hh => hc hh.2.2)]
      rcases hfl with hh | ⟨hh, _⟩
      · exact hh
      · exact absurd hh hc
  rw [if_neg (fun hh => by have := hh.1; omega), if_neg hvk.2.2.2.2.2.2.2,
    if_neg (fun hh => by have := hh.2.2.2.2; rw [hf2.2] at this; cases this),
    if_neg (fun hh => by have := hh.2.2.2.2; rw [hf2.2] at this; cases this)]
  have hs : simpleChar g k.vk k.ch f = true := by
    unfold simpleChar
    simp only [hf2.1, Bool.not_false, Bool.true_or]
    split
    · rfl
    split
    · rfl
    split
    · rename_i hh; omega
    split
    · rename_i hh; omega
    · rfl
  rw [if_pos ⟨by omega, hs⟩, hf2.2]
  exact Or.inl rfl

theorem noise_quiet {g : Cfg} {r : Record} (h : Noise r) : Quiet g r := by
  cases h with
  | @up k h hv =>
    show act g false true k = .none
    unfold act
    rw [if_pos ⟨by simp [h], fun hh => hv hh.1⟩]
  | @modifier k h =>
    show act g false true k = .none
    unfold act
    split
    · rfl
    · by_cases h18 : k.vk = 18
      · rw [if_pos h18]
        rcases h with h | h | h | h | h
        · omega
        · omega
        · omega
        · omega
        · rw [if_neg (by simp [h.2])]
      · rw [if_neg h18, if_pos (by omega)]

theorem heard_text {t : Option Tester} (h : TakesText t) {c : Nat} (hc : IsText c) (h1 : 32 ≤ c) (h2 : c ≠ 127) :
    heard t (specUtf8 c) = specUtf8 c := by
  unfold heard
  rw [if_neg (utf8_ne c)]
  cases t with
  | none => rfl
  | some k => dsimp only; rw [(h k rfl c hc h1 h2).1, (h k rfl c hc h1 h2).2]; rfl

theorem text_gives {g : Cfg} (ht : TakesText g.keys) {us : List Nat} {rs : List Record} (h : Text us rs) :
    (∀ T : List Nat, (∀ c ∈ T, IsText c) → us = T.flatMap specUtf16 → Gives g 0 rs (T.flatMap specUtf8)) ∧
    (∀ (c : Nat) (T : List Nat), IsText c → 0x10000 ≤ c → (∀ c ∈ T, IsText c) →
      us = (0xDC00 + (c - 0x10000) % 1024) :: T.flatMap specUtf16 →
      Gives g (0xD800 + (c - 0x10000) / 1024) rs (specUtf8 c ++ T.flatMap specUtf8)) := by
  induction h with
  | nil =>
    refine ⟨fun T _ e => ?_, fun c T _ _ _ e => by cases e⟩
    cases T with
    | nil => exact .nil
    | cons c T =>
      exfalso
      rw [List.flatMap_cons] at e
      unfold specUtf16 at e
      split at e <;> cases e
  | noise hn _ ih => exact ⟨fun T hT e => .quiet (noise_quiet hn) (ih.1 T hT e), fun c T hc h1 hT e => .quiet (noise_quiet hn) (ih.2 c T hc h1 hT e)⟩
  | @key k u us rs hk _ ih =>
    refine ⟨fun T hT e => ?_, fun c T hc h1 hT e => ?_⟩
    · cases T with
      | nil => cases e
      | cons c T =>
        have hc := hT c (List.mem_cons_self ..)
        have hT' : ∀ c ∈ T, IsText c := fun x hx => hT x (List.mem_cons_of_mem _ hx)
        rw [List.flatMap_cons] at e ⊢
        unfold specUtf16 at e
        split at e
        · rename_i hlt
          injection e with e1 e2
          subst e1
          have hg := ih.1 T hT' e2
          rw [← heard_text ht hc hk.printable.1 hk.printable.2]
          rcases act_types (g := g) hk with ha | ⟨e32, ha⟩
          · have := Gives.chars (g := g) ha (fun x hx => by
              rw [List.mem_singleton] at hx; subst hx; exact ⟨hlt, hc.2.2⟩) hg
            simpa using this
          · subst e32; exact Gives.seq ha hg
        · rename_i hge
          injection e with e1 e2
          have hcl := hc.2.1
          have hl : Lead u := by rw [e1]; exact ⟨by omega, by omega⟩
          rcases act_types (g := g) hk with ha | ⟨e32, _⟩
          · refine Gives.lead ha hl ?_
            rw [e1]
            exact ih.2 c T hc (by omega) hT' e2
          · have := hl.1; omega
    · injection e with e1 e2
      have hcl := hc.2.1
      have htr : Trail u := by rw [e1]; exact ⟨by omega, by omega⟩
      have hl : Lead (0xD800 + (c - 0x10000) / 1024) := ⟨by omega, by omega⟩
      have hpc : pair (0xD800 + (c - 0x10000) / 1024) u = c := by unfold pair; omega
      rw [← heard_text ht hc (by omega) (by omega)]
      rcases act_types (g := g) hk with ha | ⟨e32, _⟩
      · have := Gives.trail (g := g) ha hl htr (ih.1 T hT e2)
        rw [hpc] at this; exact this
      · have := htr.1; omega

/-! ## Everything is read -/

def St.left (s : St) : Nat := 17 * (s.pending.length + s.queue.length) + s.count

theorem readLoop_left {g : Cfg} (hp : Plain g.keys) : ∀ (now : List Record) (s : St) (bs : List Nat),
    s.Ok → s.count = 0 → s.pending = [] → Gives g s.lead now bs → now ≠ [] →
    (readLoop g s now []).left + 1 ≤ 17 * now.length ∧ (readLoop g s now []).pending = [] := by
  intro now
  induction now with
  | nil => intro s bs _ _ _ _ h; exact absurd rfl h
  | cons r q ih =>
    intro s bs h hc hpe hg _
    obtain ⟨p1, p2, p3, ⟨bs', p4, p5⟩, p6⟩ := processed hp h hc hg
    unfold readLoop
    by_cases hb : (processRecord g s r).2 = true
    · rw [if_pos hb]
      have : (processRecord g s r).1.count ≤ 16 := p1.1.count
      refine ⟨?_, p2.trans hpe⟩
      show 17 * ((processRecord g s r).1.pending.length + (q ++ []).length) + (processRecord g s r).1.count + 1 ≤ _
      rw [p2, hpe]; simp; omega
    · rw [if_neg hb]
      have hc' := p6 (by simpa using hb)
      by_cases hq : q = []
      · subst hq
        refine ⟨?_, p2.trans hpe⟩
        show 17 * ((processRecord g s r).1.pending.length + 0) + (processRecord g s r).1.count + 1 ≤ _
        rw [p2, hpe, hc']; simp
      · have := ih (processRecord g s r).1 bs' p1 hc' (p2.trans hpe) p4 hq
        refine ⟨?_, this.2⟩
        rw [List.length_cons]; omega

theorem pop_left {s : St} (h : s.count ≠ 0) : (pop s).1.left + 1 = s.left := by
  unfold pop; rw [if_neg h]
  show 17 * (s.pending.length + s.queue.length) + (s.count - 1) + 1 = _
  unfold St.left; omega

theorem pending_left {g : Cfg} (hp : Plain g.keys) {s : St} {bs : List Nat} (h : Inv g s bs) (hc : s.count = 0) {r : Record} {p : List Record}
    (hpe : s.pending = r :: p) : (processRecord g { s with pending := p } r).1.left + 1 ≤ s.left ∧
      (processRecord g { s with pending := p } r).1.queue = s.queue := by
  obtain ⟨later, hg, hb⟩ := h.gives
  rw [hpe] at hg
  obtain ⟨p1, p2, p3, _, _⟩ := processed (s := { s with pending := p }) hp ⟨⟨h.ok.len, h.ok.head, h.ok.1.count⟩, h.ok.sending, h.ok.force⟩ hc hg
  refine ⟨?_, p3⟩
  unfold St.left
  rw [p2, p3, hpe]
  have : (processRecord g { s with pending := p } r).1.count ≤ 16 := p1.1.count
  show 17 * (p.length + s.queue.length) + _ + 1 ≤ 17 * (p.length + 1 + s.queue.length) + _
  omega

theorem read_left {g : Cfg} (hp : Plain g.keys) {s : St} {bs : List Nat} (h : Inv g s bs) :
    (read g s false).1.left ≤ s.left ∧ (read g s false).1.queue = s.queue := by
  have key : ∀ t : St, (if t.count = 0 then (t, Out.none) else ((pop t).1, special (pop t).2)).1.left ≤ t.left ∧
      (if t.count = 0 then (t, Out.none) else ((pop t).1, special (pop t).2)).1.queue = t.queue := by
    intro t
    by_cases hc : t.count = 0
    · simp only [hc, if_true]; exact ⟨Nat.le_refl _, trivial⟩
    · simp only [hc, if_false]
      have := pop_left hc
      exact ⟨by omega, by unfold pop; rw [if_neg hc]⟩
  unfold read
  simp only [Bool.false_eq_true, if_false]
  by_cases hc : s.count = 0
  · rw [if_pos hc]
    cases hpe : s.pending with
    | nil => exact key s
    | cons r p =>
      have h1 := pending_left hp h hc hpe
      have h2 := key (processRecord g { s with pending := p } r).1
      exact ⟨Nat.le_trans h2.1 (by omega), h2.2.trans h1.2⟩
  · rw [if_neg hc]; exact key s

theorem round_left {g : Cfg} (hp : Plain g.keys) {s : St} {bs : List Nat} (h : Inv g s bs) (n : Nat)
    (hn : s.queue.length ≤ n) :
    (read g (select g s [] n) false).1.left ≤ s.left - 1 ∧ (read g (select g s [] n) false).1.queue.length ≤ n := by
  by_cases hc : s.count = 0
  case neg =>
    have he : select g s [] n = s := by unfold select; rw [if_pos (by omega)]
    rw [he]
    have : (read g s false).1 = (pop s).1 := by unfold read; simp only [Bool.false_eq_true, if_false, hc]
    rw [this]
    have h1 := pop_left hc
    have h2 := pop_held h.ok.1 hc
    rw [h2.2.2.1.5]
    exact ⟨by omega, hn⟩
  case pos =>
    have hs := read_left hp (select_inv hp h n)
    rw [hs.2]
    suffices hh : (select g s [] n).left ≤ s.left - 1 ∧ (select g s [] n).queue.length ≤ n from ⟨Nat.le_trans hs.1 hh.1, hh.2⟩
    clear hs
    obtain ⟨later, hg, hb⟩ := h.gives
    cases hpe : s.pending with
    | cons r p =>
      have he : select g s [] n = (processRecord g { s with pending := p } r).1 := by unfold select; rw [if_neg (by omega), hpe]
      rw [he]
      have := pending_left hp h hc hpe
      rw [this.2]
      exact ⟨by omega, hn⟩
    | nil =>
      rw [hpe] at hg
      have he : select g s [] n = readLoop g s s.queue [] := by
        unfold select
        rw [if_neg (by omega), hpe]
        show (if s.count ≠ 0 then s else readLoop g s (s.queue.take n) (s.queue.drop n)) = _
        rw [if_neg (by omega), List.take_of_length_le hn, List.drop_of_length_le hn]
      rw [he]
      by_cases hq : s.queue = []
      · rw [hq]
        refine ⟨?_, by show ([] : List Record).length ≤ n; simp⟩
        show 17 * (s.pending.length + 0) + s.count ≤ _
        rw [hpe, hc]; simp
      · have h1 := readLoop_left hp s.queue s later h.ok hc hpe hg hq
        have h3 := h1.1
        have hsl : s.left = 17 * s.queue.length := by unfold St.left; rw [hpe, hc]; simp
        refine ⟨by omega, ?_⟩
        unfold St.left at h3; omega

theorem rounds_left {g : Cfg} (hp : Plain g.keys) (n : Nat) : ∀ (m : Nat) (s : St) (bs : List Nat), Inv g s bs → (∀ b ∈ bs, b ≤ 0xFD) →
    s.queue.length ≤ n → s.left ≤ m → (run g s (rounds n m)).1.left = 0 := by
  intro m
  induction m with
  | zero => intro s bs _ _ _ h; exact Nat.le_zero.1 h
  | succ m ih =>
    intro s bs h hb h2 h3
    obtain ⟨r1, r3⟩ := round_left hp h n h2
    obtain ⟨bs', i, _, hb'⟩ := read_inv hp (select_inv hp h n) hb false
    exact ih _ bs' i hb' r3 (Nat.le_trans r1 (by omega))

theorem rounds_calm (n m : Nat) : ∀ o ∈ rounds n m, Calm o := by
  induction m with
  | zero => intro o h; cases h
  | succ m ih =>
    intro o h
    rcases List.mem_cons.1 h with h | h
    · subst h; rfl
    rcases List.mem_cons.1 h with h | h
    · subst h; trivial
    · exact ih o h

theorem left_zero {g : Cfg} {s : St} {bs : List Nat} (h : Inv g s bs) (h0 : s.left = 0) : bs = [] := by
  obtain ⟨later, hg, hb⟩ := h.gives
  unfold St.left at h0
  have h1 : s.pending = [] := List.length_eq_zero_iff.1 (by omega)
  have h2 : s.queue = [] := List.length_eq_zero_iff.1 (by omega)
  rw [h1, h2] at hg
  rw [hb, held_nil (by omega)]
  generalize s.lead = l at hg
  generalize hr : ([] : List Record) ++ [] = rr at hg
  cases hg with
  | nil => rfl
  | quiet => cases hr
  | seq => cases hr
  | chars => cases hr
  | lead => cases hr
  | trail => cases hr
  | exit => cases hr

/-! ## Peek -/

theorem first_held {s : St} (h : s.count ≠ 0) (hr : s.Ring) : s.held.head? = some (s.buf.getD s.head 0) := by
  unfold St.held St.chord
  obtain ⟨n, hn⟩ := Nat.exists_eq_succ_of_ne_zero h
  have := hr.head
  rw [hn, List.range_succ_eq_map]
  simp [Nat.mod_eq_of_lt this]

theorem same_held {g : Cfg} {s : St} (h : s.Ok) (hc : s.count = 0) {k : Key} {rs : List Record} {bs : List Nat}
    (hg : Gives g s.lead (.key k :: rs) bs) (p : List Record) :
    (processKey g { s with pending := p } k).held = (processKey g s k).held ∧ (processKey g s k).Ring ∧ (processKey g { s with pending := p } k).Ring := by
  have h' : ({ s with pending := p } : St).Ok := ⟨⟨h.len, h.head, h.1.count⟩, h.sending, h.force⟩
  have hc' : ({ s with pending := p } : St).count = 0 := hc
  obtain ⟨l, hl⟩ : ∃ l, s.lead = l := ⟨_, rfl⟩
  rw [hl] at hg
  generalize hrr : Record.key k :: rs = rrs at hg
  cases hg with
  | nil => cases hrr
  | @quiet l' r' rs' bs' hq hr =>
    injection hrr with h1 h2; subst h1; subst h2
    rw [noneOf h hc hq, noneOf h' hc' hq]; exact ⟨rfl, h.1, h'.1⟩
  | @seq k q rs' bs' ha hr =>
    injection hrr with h1 h2; injection h1 with h1; subst h1; subst h2
    have a := seqOf h hc ha; have b := seqOf h' hc' ha
    exact ⟨by rw [a.2.2.2, b.2.2.2], a.1, b.1⟩
  | @chars k q rs' bs' ha hu hr =>
    injection hrr with h1 h2; injection h1 with h1; subst h1; subst h2
    have a := charsOf h hc hl ha hu; have b := charsOf h' hc' hl ha hu
    exact ⟨by rw [a.2.2.2, b.2.2.2], a.1, b.1⟩
  | @lead k hi rs' bs' ha hh hr =>
    injection hrr with h1 h2; injection h1 with h1; subst h1; subst h2
    rw [leadOf h hc ha hh, leadOf h' hc' ha hh]
    exact ⟨rfl, Ring.lead h.1 hi, Ring.lead h'.1 hi⟩
  | @trail k hi lo rs' bs' ha hh htr hr =>
    injection hrr with h1 h2; injection h1 with h1; subst h1; subst h2; subst hl
    have a := trailOf h hc ha hh htr; have b := trailOf h' hc' ha hh htr
    exact ⟨by rw [a.2.2.2, b.2.2.2], a.1, b.1⟩
  | @exit k rs' bs' ha hr =>
    injection hrr with h1 h2; injection h1 with h1; subst h1; subst h2
    have a := exitOf h hc hl ha; have b := exitOf h' hc' hl ha
    exact ⟨by rw [a.2.2.2, b.2.2.2], a.1, b.1⟩

theorem pop_snd {s : St} (h : s.count ≠ 0) : (pop s).2 = s.buf.getD s.head 0 := by unfold pop; rw [if_neg h]

/-- `peek` says what `read` returns, if every key is taken as it is. -/
theorem peek_read {g : Cfg} (ht : ∀ t, g.keys = some t → ∀ c, t.translate c = none ∧ t.bound c = true) {s : St} {bs : List Nat}
    (h : Inv g s bs) (hs : ∀ c, s.pending.head? ≠ some (.size c)) : (peek g s).2 = some (read g s false).2 := by
  unfold peek read
  simp only [Bool.false_eq_true, if_false]
  by_cases hc : s.count = 0
  case neg => simp only [hc, ne_eq, not_false_eq_true, if_true, if_false]; rw [pop_snd hc]
  rw [if_neg (fun hh : s.count ≠ 0 => hh hc), if_pos hc]
  cases hpe : s.pending with
  | nil => simp [hc]
  | cons r p =>
    obtain ⟨later, hg, hb⟩ := h.gives
    rw [hpe] at hg
    have hf : ∀ t : St, filterUnbound g t 0 = t := by
      intro t
      unfold filterUnbound
      cases hk : g.keys with
      | none => rfl
      | some q =>
        dsimp only
        split
        · rfl
        · rw [(ht q hk _).1]; dsimp only; rw [(ht q hk _).2]; rfl
    have h' : ({ s with pending := p } : St).Ok := ⟨⟨h.ok.len, h.ok.head, h.ok.1.count⟩, h.ok.sending, h.ok.force⟩
    cases r with
    | size c => exact absurd (by rw [hpe]; rfl) (hs c)
    | other => simp [peekRecord, processRecord, hc]
    | mouse m =>
      have hq : Quiet g (.mouse m) := by
        generalize s.lead = l at hg
        generalize hrr : Record.mouse m :: p ++ s.queue = rrs at hg
        cases hg with
        | quiet hq _ => injection hrr with e _; subst e; exact hq
        | nil => cases hrr
        | seq => cases hrr
        | chars => cases hrr
        | lead => cases hrr
        | trail => cases hrr
        | exit => cases hrr
      have hm := mouse_quiet hq s.prevLeft s.prevRight
      simp [peekRecord, processRecord, processMouse, hm, St.apply, hc, h.ok.sending]
    | key k =>
      obtain ⟨a1, a2, a3⟩ := same_held h.ok hc hg p
      have hcount : (processKey g { s with pending := p } k).count = (processKey g s k).count := by
        rw [← held_length, a1, held_length]
      have hpr : (processRecord g { s with pending := p } (.key k)).1.count = (processKey g { s with pending := p } k).count ∧
          (processRecord g { s with pending := p } (.key k)).1.buf = (processKey g { s with pending := p } k).buf ∧
          (processRecord g { s with pending := p } (.key k)).1.head = (processKey g { s with pending := p } k).head := by
        have e : processRecord g { s with pending := p } (.key k) =
            (if (filterUnbound g (processKey g { s with pending := p } k) s.count).sending then
              { filterUnbound g (processKey g { s with pending := p } k) s.count with
                processed := (filterUnbound g (processKey g { s with pending := p } k) s.count).processed ++ [.key k] }
            else filterUnbound g (processKey g { s with pending := p } k) s.count,
            decide ((filterUnbound g (processKey g { s with pending := p } k) s.count).count > s.count) || false) := rfl
        rw [e, hc, hf]
        dsimp only
        split <;> exact ⟨rfl, rfl, rfl⟩
      have hpk : (peekRecord g s (.key k)).2 = (decide ((processKey g s k).count > s.count),
          some (if decide ((processKey g s k).count > s.count) then special ((processKey g s k).buf.getD (processKey g s k).head 0) else .none)) := rfl
      by_cases hz : (processKey g s k).count = 0
      · dsimp only
        rw [hpk, hpr.1, hcount, hz, hc]
        simp
      · dsimp only
        have h1 := first_held hz a2
        have h2 := first_held (by rw [hcount]; exact hz) a3
        rw [a1, h1] at h2
        injection h2 with h2
        rw [hpk, hpr.1, hcount]
        simp only [hz, if_false]
        rw [pop_snd (by rw [hpr.1, hcount]; exact hz), hpr.2.1, hpr.2.2, ← h2]
        have : (processKey g s k).count > s.count := by omega
        simp [this]

theorem run_append (g : Cfg) (a b : List Op) (s : St) :
    (run g s (a ++ b)).1 = (run g (run g s a).1 b).1 ∧ (run g s (a ++ b)).2 = (run g s a).2 ++ (run g (run g s a).1 b).2 := by
  induction a generalizing s with
  | nil => exact ⟨rfl, rfl⟩
  | cons o os ih =>
    refine ⟨(ih (step g s o).1).1, ?_⟩
    show (step g s o).2.toList ++ (run g (step g s o).1 (os ++ b)).2 = ((step g s o).2.toList ++ _) ++ _
    rw [(ih (step g s o).1).2, List.append_assoc]
    rfl

/-! ## Other keys -/

theorem act_plain {g : Cfg} {k : Key} (hd : k.down = true) (hv : k.vk ≠ 16 ∧ k.vk ≠ 17 ∧ k.vk ≠ 18 ∧ k.vk ≠ 0x5B ∧ k.vk ≠ 0x5C)
    (hc : k.ch ≠ 27) : act g false true k = actKey g true k.vk k.sc k.ch k.flags := by
  unfold act
  rw [if_neg (by simp [hd]), if_neg hv.2.2.1, if_neg (by omega), if_neg (fun hh => hc hh.1)]

theorem act_named {g : Cfg} {k : Key} (hd : k.down = true) (hc : k.ch = 0) (hv : 33 ≤ k.vk ∧ k.vk ≤ 46) {q : List Nat}
    (hq : namedSeq k.vk (keymodIndex k.flags) = some q) : act g false true k = .seq q := by
  rw [act_plain hd (by omega) (by omega)]
  unfold actKey
  simp only [hc, bne_self_eq_false, Bool.and_false, Bool.false_and, Bool.false_eq_true, if_false]
  rw [if_neg (by omega), if_neg (by omega), if_neg (by omega), if_neg (by omega), if_neg (by omega), if_neg (by omega), if_neg (by omega),
    if_neg (by omega)]
  have : ¬ ((0 : Nat) > 31 ∧ (0 : Nat) ≠ 127 ∧ k.flags.ctrl = true) := fun hh => by omega
  rw [if_neg this]
  unfold actRest
  rw [hq]

theorem act_fn {g : Cfg} {k : Key} (hd : k.down = true) (hc : k.ch = 0) (hv : 0x70 ≤ k.vk ∧ k.vk ≤ 0x7B) :
    act g false true k = if keymodIndex k.flags = 4 ∧ k.vk = 0x73 ∧ g.altF4 = true then .exit else .seq (kfx (keymodIndex k.flags) (k.vk - 0x70)) := by
  rw [act_plain hd (by omega) (by omega)]
  unfold actKey
  simp only [hc, bne_self_eq_false, Bool.and_false, Bool.false_and, Bool.false_eq_true, if_false]
  rw [if_neg (by omega), if_neg (by omega), if_neg (by omega), if_neg (by omega), if_pos hv]
  have : ¬ ((0 : Nat) > 31 ∧ (0 : Nat) ≠ 127 ∧ k.flags.ctrl = true) := fun hh => by omega
  rw [if_neg this]

end Clink.TermIn
