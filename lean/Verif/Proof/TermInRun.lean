import Verif.Proof.TermInRec

/-!
Runs of calls: what is read is what the records give.
-/

namespace Clink.TermIn
open Spec Clink.Utf

/-! ## Bytes -/

def Ascii (l : List Nat) : Prop := ∀ b ∈ l, b < 128

theorem Ascii.append {a b : List Nat} (h : Ascii a) (k : Ascii b) : Ascii (a ++ b) := by
  intro x hx; rcases List.mem_append.1 hx with hx | hx
  · exact h x hx
  · exact k x hx
theorem Ascii.cons {a : Nat} {b : List Nat} (h : a < 128) (k : Ascii b) : Ascii (a :: b) := by
  intro x hx; rcases List.mem_cons.1 hx with hx | hx
  · omega
  · exact k x hx
theorem ascii_nil : Ascii [] := fun _ h => by cases h

theorem modDigit_ascii (i : Nat) : modDigit i < 128 := by
  unfold modDigit
  match i with
  | 0 | 1 | 2 | 3 | 4 | 5 | 6 | 7 => decide
  | i + 8 => simp

theorem digits_ascii (n : Nat) : Ascii (Color.digits n) := by
  induction n using Nat.strongRecOn with
  | _ n ih =>
    rw [Color.digits]; split
    · exact .cons (by omega) ascii_nil
    · exact .append (ih _ (by omega)) (.cons (by omega) ascii_nil)

theorem letter_ascii {c : Nat} (h : c < 128) (i : Nat) : Ascii (letterSeq c i) := by
  have := modDigit_ascii i
  unfold letterSeq csi; split
  · exact .cons (by omega) (.cons (by omega) (.cons h ascii_nil))
  · exact .cons (by omega) (.cons (by omega) (.cons (by omega) (.cons (by omega) (.cons this (.cons h ascii_nil)))))
theorem tilde_ascii {d : List Nat} (h : Ascii d) (i : Nat) : Ascii (tildeSeq d i) := by
  have := modDigit_ascii i
  unfold tildeSeq csi; split
  · exact .cons (by omega) (.cons (by omega) (.append h (.cons (by omega) ascii_nil)))
  · exact .cons (by omega) (.cons (by omega) (.append h (.cons (by omega) (.cons this (.cons (by omega) ascii_nil)))))
theorem fnDigits_ascii (n : Nat) : Ascii (fnDigits n) := by
  unfold fnDigits Ascii
  generalize n - 4 = m
  match m with
  | 0 | 1 | 2 | 3 | 4 | 5 | 6 | 7 => decide
  | m + 8 => simp
theorem mok_ascii (i : Nat) {k : List Nat} (h : Ascii k) : Ascii (mok i k) := by
  have := modDigit_ascii i
  unfold mok csi
  exact .cons (by omega) (.cons (by omega) (.append (.append (.cons (by omega) (.cons (by omega) (.cons (by omega) (.cons this (.cons (by omega) ascii_nil))))) h) (.cons (by omega) ascii_nil)))
theorem kfx_ascii (i n : Nat) : Ascii (kfx i n) := by
  unfold kfx
  have hb : Ascii (if n < 4 then if i % 4 = 0 then [27, 79, 80 + n] else letterSeq (80 + n) (i % 4) else tildeSeq (fnDigits n) (i % 4)) := by
    split
    · split
      · exact .cons (by omega) (.cons (by omega) (.cons (by omega) ascii_nil))
      · exact letter_ascii (by omega) _
    · exact tilde_ascii (fnDigits_ascii n) _
  dsimp only
  split
  · exact hb
  · exact .cons (by omega) hb

theorem named_ascii {vk i : Nat} {s : List Nat} (h : namedSeq vk i = some s) : Ascii s := by
  have hl : ∀ c, c < 128 → letterSeq c i = s → Ascii s := fun c hc e => e ▸ letter_ascii hc i
  have ht : ∀ d, d < 128 → tildeSeq [d] i = s → Ascii s := fun d hd e => e ▸ tilde_ascii (.cons hd ascii_nil) i
  have hb : kbks i = s → Ascii s := by
    intro e; subst e
    unfold kbks
    repeat' split
    all_goals first
      | exact mok_ascii _ (.cons (by omega) ascii_nil)
      | (unfold Ascii; decide)
  unfold namedSeq at h
  repeat' split at h
  all_goals first
    | (injection h with h; first | exact hl _ (by omega) h | exact ht _ (by omega) h | exact hb h)
    | cases h

theorem actRest_ascii {g : Cfg} {vk sc ch : Nat} {f : Flags} {s : List Nat} (h : actRest g vk sc ch f = .seq s) : Ascii s := by
  unfold actRest at h
  split at h
  · rename_i t ht
    injection h with h; subst h; exact named_ascii ht
  · split at h
    · cases h
    · split at h
      · injection h with h; subst h
        have h1 := digits_ascii vk
        have h2 := digits_ascii (xtermModifier f)
        have h0 : Ascii [50, 55, 59] := by unfold Ascii; decide
        have h3 : Ascii [126] := by unfold Ascii; decide
        have h4 : Ascii [59] := by unfold Ascii; decide
        unfold csi
        split
        · exact .cons (by omega) (.cons (by omega) ((((h0.append h2).append h4).append h1).append h3))
        · exact .cons (by omega) (.cons (by omega) ((h0.append h1).append h3))
      · cases h

theorem actKey_ascii {g : Cfg} {e : Bool} {vk sc ch : Nat} {f : Flags} {s : List Nat} (h : actKey g e vk sc ch f = .seq s) : Ascii s := by
  unfold actKey at h
  dsimp only at h
  generalize (if ((f.lalt && !f.ralt) && f.ctrl && ch != 0 && g.altgr) = true then _ else f) = f1 at h
  generalize (if ((f.lalt && !f.ralt) && f.ctrl && ch != 0 && !g.altgr) = true then 0 else ch) = ch1 at h
  generalize (if ch1 > 31 ∧ ch1 ≠ 127 ∧ f1.ctrl = true then _ else f1) = f2 at h
  split at h
  · injection h with h; subst h
    unfold ktab
    repeat' split
    all_goals first
      | exact mok_ascii _ (.cons (by omega) ascii_nil)
      | (unfold Ascii csi; decide)
      | (unfold Ascii; decide)
  split at h
  · injection h with h; subst h
    unfold kspc
    repeat' split
    all_goals first
      | exact mok_ascii _ (.cons (by omega) (.cons (by omega) ascii_nil))
      | (unfold Ascii; decide)
  split at h
  · injection h with h; subst h
    unfold kret
    split
    · unfold Ascii; decide
    · exact mok_ascii _ (.cons (by omega) (.cons (by omega) ascii_nil))
  split at h
  · injection h with h; subst h; unfold Ascii csi; decide
  split at h
  · split at h
    · cases h
    · injection h with h; subst h; exact kfx_ascii _ _
  split at h
  · injection h with h; subst h; exact mok_ascii _ (.cons (by omega) (.cons (by omega) ascii_nil))
  split at h
  · injection h with h; subst h; exact mok_ascii _ (.cons (by omega) (.cons (by omega) ascii_nil))
  split at h
  · cases h
  · exact actRest_ascii h

theorem act_ascii {g : Cfg} {raw e : Bool} {k : Key} {s : List Nat} (h : act g raw e k = .seq s) : Ascii s := by
  unfold act at h
  split at h
  · cases h
  split at h
  · split at h <;> cases h
  split at h
  · cases h
  split at h
  · injection h with h; subst h; unfold Ascii csi; decide
  · exact actKey_ascii h

theorem utf8_bytes {c : Nat} (h : c < 0x110000) : ∀ b ∈ specUtf8 c, b < 0xFD := by
  unfold specUtf8
  repeat' split
  all_goals
    intro b hb
    simp only [List.mem_cons, List.not_mem_nil, or_false] at hb
    omega

/-- No byte means that there was no input, or that it was aborted. -/
theorem gives_bytes {g : Cfg} (hp : Plain g.keys) {l : Nat} {rs : List Record} {bs : List Nat} (h : Gives g l rs bs) : ∀ b ∈ bs, b ≤ 0xFD := by
  have hh : ∀ c : List Nat, (∀ b ∈ c, b ≤ 0xFD) → ∀ b ∈ heard g.keys c, b ≤ 0xFD := by
    intro c hc b hb
    unfold heard at hb
    split at hb
    · cases hb
    · cases hk : g.keys with
      | none => rw [hk] at hb; exact hc b hb
      | some t =>
        rw [hk] at hb
        dsimp only at hb
        cases ht : t.translate c with
        | some l => rw [ht] at hb; have := (hp t hk _ _ ht).2 b hb; omega
        | none =>
          rw [ht] at hb; dsimp only at hb
          split at hb
          · exact hc b hb
          · cases hb
  induction h with
  | nil => intro b hb; cases hb
  | quiet _ _ ih => exact ih
  | seq ha _ ih =>
    intro b hb; rcases List.mem_append.1 hb with hb | hb
    · exact hh _ (fun x hx => by have := act_ascii ha x hx; omega) b hb
    · exact ih b hb
  | chars ha hu _ ih =>
    intro b hb; rcases List.mem_append.1 hb with hb | hb
    · refine hh _ (fun x hx => ?_) b hb
      obtain ⟨c, hc, hx⟩ := List.mem_flatMap.1 hx
      have := utf8_bytes (c := c) (by have := (hu c hc).1; omega) x hx; omega
    · exact ih b hb
  | lead _ _ _ ih => exact ih
  | trail ha hl ht _ ih =>
    intro b hb; rcases List.mem_append.1 hb with hb | hb
    · refine hh _ (fun x hx => ?_) b hb
      have := utf8_bytes (pair_text hl ht).1.2.1 x hx; omega
    · exact ih b hb
  | exit _ _ ih =>
    intro b hb; rcases List.mem_append.1 hb with hb | hb
    · exact hh _ (fun x hx => by simp at hx; omega) b hb
    · exact ih b hb

theorem special_input {b : Nat} (h : b ≤ 0xFD) : inputs [special b] = [special b] := by
  unfold special
  rw [if_neg (by omega), if_neg (by omega)]
  split <;> rfl

/-! ## Invariant -/

/-- Not the first half of a pair. -/
def Whole (g : Cfg) (r : Record) : Prop := ∀ k hi, r = .key k → act g false true k = .chars [hi] → ¬ Lead hi

theorem chunk_lead {g : Cfg} {s : St} {k : Key} (h : (processKey g s k).lead = 0) : (peekRecord g s (.key k)).1.lead = s.lead := by
  show (if s.lead ≠ 0 then s.lead else (processKey g s k).lead) = s.lead
  rw [h]; split
  · rfl
  · rename_i hh; omega

theorem looked_whole {g : Cfg} {s : St} (h : s.Ok) (hc : s.count = 0) {r : Record} {rs : List Record} {bs : List Nat}
    (hg : Gives g s.lead (r :: rs) bs) :
    ((peekRecord g s r).2.1 = true → Whole g r) ∧ (Whole g r → (peekRecord g s r).1.lead = s.lead) := by
  generalize hl : s.lead = l at hg
  generalize hrr : r :: rs = rrs at hg
  cases hg with
  | nil => cases hrr
  | @quiet l' r' rs' bs' hq hr =>
    injection hrr with h1 h2; subst h1; subst h2; subst hl
    cases r with
    | key k =>
      refine ⟨fun _ k' hi e ha => ?_, fun _ => ?_⟩
      · injection e with e; subst e; rw [show act g false true k = .none from hq] at ha; cases ha
      · show (if s.lead ≠ 0 then s.lead else (processKey g s k).lead) = s.lead
        rw [noneOf h hc hq]; split <;> rfl
    | mouse m =>
      refine ⟨fun _ k' hi e => (by cases e), fun _ => ?_⟩
      show (if s.lead ≠ 0 then s.lead else (processMouse g s m).lead) = s.lead
      have : (processMouse g s m).lead = s.lead := by unfold processMouse; rw [mouse_quiet hq]; rfl
      rw [this]; split <;> rfl
    | size c => exact ⟨fun _ k' hi e => (by cases e), fun _ => rfl⟩
    | other => exact ⟨fun _ k' hi e => (by cases e), fun _ => rfl⟩
  | @seq k q rs' bs' ha hr =>
    injection hrr with h1 h2; subst h1; subst h2
    refine ⟨fun _ k' hi e ha' => ?_, fun _ => (chunk_lead (seqOf h hc ha).2.2.1).trans hl⟩
    injection e with e; subst e; rw [ha] at ha'; cases ha'
  | @chars k q rs' bs' ha hu hr =>
    injection hrr with h1 h2; subst h1; subst h2
    refine ⟨fun _ k' hi e ha' => ?_, fun _ => (chunk_lead (charsOf h hc hl ha hu).2.2.1).trans hl⟩
    injection e with e; subst e; rw [ha] at ha'; injection ha' with ha'; subst ha'
    intro hhi; exact (hu hi (by simp)).2 ⟨hhi.1, by have := hhi.2; omega⟩
  | @lead k hi rs' bs' ha hh hr =>
    injection hrr with h1 h2; subst h1; subst h2
    refine ⟨fun hb => ?_, fun hw => absurd hh (hw k hi rfl ha)⟩
    have : (peekRecord g s (.key k)).2.1 = decide ((processKey g s k).count > s.count) := rfl
    rw [this, leadOf h hc ha hh] at hb
    simp at hb
  | @trail k hi lo rs' bs' ha hh htr hr =>
    injection hrr with h1 h2; subst h1; subst h2; subst hl
    refine ⟨fun _ k' hi e ha' => ?_, fun _ => chunk_lead (trailOf h hc ha hh htr).2.2.1⟩
    injection e with e; subst e; rw [ha] at ha'; injection ha' with ha'; injection ha' with ha'; subst ha'
    intro hhi; have := hhi.2; have := htr.1; omega
  | @exit k rs' bs' ha hr =>
    injection hrr with h1 h2; subst h1; subst h2
    refine ⟨fun _ k' hi e ha' => ?_, fun _ => (chunk_lead (exitOf h hc hl ha).2.2.1).trans hl⟩
    injection e with e; subst e; rw [ha] at ha'; cases ha'

/-- What is still to be read. -/
structure Inv (g : Cfg) (s : St) (bs : List Nat) : Prop where
  ok : s.Ok
  whole : ∀ r ∈ s.pending, Whole g r
  gives : ∃ later, Gives g s.lead (s.pending ++ s.queue) later ∧ bs = s.held ++ later

theorem readLoop_inv {g : Cfg} (hp : Plain g.keys) : ∀ (now : List Record) (s : St) (later : List Record) (bs : List Nat),
    s.Ok → s.count = 0 → s.pending = [] → Gives g s.lead (now ++ later) bs → Inv g (readLoop g s now later) bs := by
  intro now
  induction now with
  | nil =>
    intro s later bs h hc hpe hg
    refine ⟨⟨⟨h.len, h.head, h.1.count⟩, h.sending, h.force⟩, fun r hr => ?_, bs, ?_, ?_⟩
    · have : r ∈ s.pending := hr
      rw [hpe] at this; cases this
    · show Gives g s.lead (s.pending ++ later) bs
      rw [hpe]; exact hg
    · have : (readLoop g s [] later).held = [] := held_nil hc
      rw [this]; rfl
  | cons r q ih =>
    intro s later bs h hc hpe hg
    obtain ⟨p1, p2, p3, ⟨bs', p4, p5⟩, p6⟩ := processed hp h hc hg
    unfold readLoop
    by_cases hb : (processRecord g s r).2 = true
    · rw [if_pos hb]
      refine ⟨⟨⟨p1.len, p1.head, p1.1.count⟩, p1.sending, p1.force⟩, fun r' hr => ?_, bs', ?_, p5⟩
      · have : r' ∈ (processRecord g s r).1.pending := hr
        rw [p2, hpe] at this; cases this
      · show Gives g _ ((processRecord g s r).1.pending ++ (q ++ later)) bs'
        rw [p2, hpe]; exact p4
    · rw [if_neg hb]
      have hc' := p6 (by simpa using hb)
      have := ih (processRecord g s r).1 later bs' p1 hc' (p2.trans hpe) p4
      rw [p5, held_nil hc']; exact this

theorem peekLoop_inv {g : Cfg} : ∀ (now : List Record) (s : St) (later : List Record) (bs : List Nat),
    s.Ok → s.count = 0 → s.pending = [] → Gives g s.lead (now ++ later) bs → Inv g (peekLoop g s now later) bs ∧ (peekLoop g s now later).count = 0 := by
  intro now
  induction now with
  | nil =>
    intro s later bs h hc hpe hg
    refine ⟨⟨⟨⟨h.len, h.head, h.1.count⟩, h.sending, h.force⟩, fun r hr => ?_, bs, ?_, ?_⟩, hc⟩
    · have : r ∈ s.pending := hr
      rw [hpe] at this; cases this
    · show Gives g s.lead (s.pending ++ later) bs
      rw [hpe]; exact hg
    · have : (peekLoop g s [] later).held = [] := held_nil hc
      rw [this]; rfl
  | cons r q ih =>
    intro s later bs h hc hpe hg
    obtain ⟨p1, p2, p3, p4, p5, p6⟩ := looked h hc hg
    unfold peekLoop
    by_cases hb : (peekRecord g s r).2.1 = true
    · rw [if_pos hb]
      refine ⟨⟨⟨⟨p1.len, p1.head, p1.1.count⟩, p1.sending, p1.force⟩, fun r' hr => ?_, bs, ?_, ?_⟩, p2⟩
      · have : r' ∈ [r] := hr
        rw [List.mem_singleton] at this; subst this; exact (looked_whole h hc hg).1 hb
      · show Gives g (peekRecord g s r).1.lead (r :: (q ++ later)) bs
        rw [p5 hb]; exact hg
      · have : ({ (peekRecord g s r).1 with pending := [r], queue := q ++ later } : St).held = [] := held_nil p2
        rw [this]; rfl
    · rw [if_neg hb]
      exact ih (peekRecord g s r).1 later bs p1 p2 (p3.trans hpe) (p6 (by simpa using hb))

theorem peekLoop_rest {g : Cfg} : ∀ (now : List Record) (s : St) (later : List Record),
    (peekLoop g s now later).pending = [] → (peekLoop g s now later).queue = later := by
  intro now
  induction now with
  | nil => intro s later _; rfl
  | cons r q ih =>
    intro s later h
    unfold peekLoop at h ⊢
    split
    · rename_i hb; rw [if_pos hb] at h; cases h
    · rename_i hb; rw [if_neg hb] at h; exact ih _ _ h

theorem start_inv {g : Cfg} {rs : List Record} {bs : List Nat} (h : Gives g 0 rs bs) : Inv g { queue := rs } bs :=
  ⟨⟨⟨rfl, Nat.zero_lt_succ _, Nat.zero_le _⟩, rfl, rfl⟩, fun r hr => (by cases hr), bs, h, rfl⟩

theorem available_inv {g : Cfg} {s : St} {bs : List Nat} (h : Inv g s bs) (n : Nat) : Inv g (available g s n).1 bs := by
  unfold available
  by_cases hc : s.count > 0 ∨ s.pending ≠ []
  · rw [if_pos hc]; exact h
  · rw [if_neg hc]
    have h1 : s.count = 0 := by omega
    have h2 : s.pending = [] := by
      cases hpe : s.pending with
      | nil => rfl
      | cons a b => exact absurd (Or.inr (by rw [hpe]; simp)) hc
    obtain ⟨later, hg, hb⟩ := h.gives
    rw [held_nil h1] at hb
    rw [h2] at hg
    subst hb
    exact (peekLoop_inv _ s _ _ h.ok h1 h2 (by rw [List.take_append_drop]; exact hg)).1

theorem pending_inv {g : Cfg} (hp : Plain g.keys) {s : St} {bs : List Nat} (h : Inv g s bs) (hc : s.count = 0) {r : Record} {p : List Record}
    (hpe : s.pending = r :: p) : Inv g (processRecord g { s with pending := p } r).1 bs := by
  obtain ⟨later, hg, hb⟩ := h.gives
  rw [held_nil hc] at hb
  rw [hpe] at hg
  subst hb
  obtain ⟨p1, p2, p3, ⟨bs', p4, p5⟩, p6⟩ := processed (s := { s with pending := p }) hp ⟨⟨h.ok.len, h.ok.head, h.ok.1.count⟩, h.ok.sending, h.ok.force⟩ hc hg
  refine ⟨p1, fun r' hr => ?_, bs', ?_, p5⟩
  · rw [p2] at hr
    exact h.whole r' (by rw [hpe]; exact List.mem_cons_of_mem _ hr)
  · rw [p2, p3]; exact p4

theorem select_inv {g : Cfg} (hp : Plain g.keys) {s : St} {bs : List Nat} (h : Inv g s bs) (n : Nat) : Inv g (select g s [] n) bs := by
  unfold select
  by_cases hc : s.count > 0
  · rw [if_pos hc]; exact h
  · rw [if_neg hc]
    have h1 : s.count = 0 := by omega
    cases hpe : s.pending with
    | cons r p => exact pending_inv hp h h1 hpe
    | nil =>
      show Inv g (if s.count ≠ 0 then s else readLoop g s (s.queue.take n) (s.queue.drop n)) bs
      rw [if_neg (by omega)]
      obtain ⟨later, hg, hb⟩ := h.gives
      rw [held_nil h1] at hb
      rw [hpe] at hg
      subst hb
      exact readLoop_inv hp _ s _ _ h.ok h1 hpe (by rw [List.take_append_drop]; exact hg)

theorem inv_bytes {g : Cfg} (hp : Plain g.keys) {s : St} {bs : List Nat} (h : Inv g s bs) (hh : ∀ b ∈ s.held, b ≤ 0xFD) : ∀ b ∈ bs, b ≤ 0xFD := by
  obtain ⟨later, hg, hb⟩ := h.gives
  intro b hx
  rw [hb] at hx
  rcases List.mem_append.1 hx with hx | hx
  · exact hh b hx
  · exact gives_bytes hp hg b hx

theorem take_inv {g : Cfg} {s : St} {bs : List Nat} (h : Inv g s bs) (hc : s.count ≠ 0) (hb : ∀ b ∈ bs, b ≤ 0xFD) :
    ∃ bs', Inv g (pop s).1 bs' ∧ inputs [special (pop s).2] ++ bs'.map special = bs.map special ∧ ∀ b ∈ bs', b ≤ 0xFD := by
  obtain ⟨later, hg, he⟩ := h.gives
  obtain ⟨q4, q1, q2, q3⟩ := pop_held h.ok.1 hc
  subst he
  rw [q4] at hb ⊢
  refine ⟨(pop s).1.held ++ later, ⟨q2.ok h.ok q1, fun r hr => h.whole r (q2.3 ▸ hr), later, ?_, rfl⟩, ?_, fun b hx => hb b (by simp at hx ⊢; right; exact hx)⟩
  · rw [q3, q2.3, q2.5]; exact hg
  · rw [special_input (hb _ (by simp))]; simp

theorem read_inv {g : Cfg} (hp : Plain g.keys) {s : St} {bs : List Nat} (h : Inv g s bs) (hb : ∀ b ∈ bs, b ≤ 0xFD) (resized : Bool) :
    ∃ bs', Inv g (read g s resized).1 bs' ∧ inputs [(read g s resized).2] ++ bs'.map special = bs.map special ∧ ∀ b ∈ bs', b ≤ 0xFD := by
  unfold read
  cases resized
  case true => exact ⟨bs, h, rfl, hb⟩
  simp only [Bool.false_eq_true, if_false]
  have key : ∀ t : St, Inv g t bs →
      ∃ bs', Inv g (if t.count = 0 then (t, Out.none) else ((pop t).1, special (pop t).2)).1 bs' ∧
        inputs [(if t.count = 0 then (t, Out.none) else ((pop t).1, special (pop t).2)).2] ++ bs'.map special = bs.map special ∧ ∀ b ∈ bs', b ≤ 0xFD := by
    intro t ht
    by_cases hc : t.count = 0
    · simp only [hc, if_true]; exact ⟨bs, ht, rfl, hb⟩
    · simp only [hc, if_false]; exact take_inv ht hc hb
  apply key
  by_cases hc : s.count = 0
  · rw [if_pos hc]
    cases hpe : s.pending with
    | nil => exact h
    | cons r p => exact pending_inv hp h hc hpe
  · rw [if_neg hc]; exact h

theorem peek_inv {g : Cfg} {s : St} {bs : List Nat} (h : Inv g s bs) : Inv g (peek g s).1 bs := by
  unfold peek
  by_cases hc : s.count ≠ 0
  · rw [if_pos hc]; exact h
  · rw [if_neg hc]
    have h1 : s.count = 0 := by omega
    cases hpe : s.pending with
    | nil => exact h
    | cons r p =>
      obtain ⟨later, hg, he⟩ := h.gives
      have hg' := hg
      rw [hpe] at hg'
      have hw := h.whole r (by rw [hpe]; simp)
      have hl := (looked_whole h.ok h1 hg').2 hw
      obtain ⟨p1, p2, p3, p4, p5, p6⟩ := looked h.ok h1 hg'
      refine ⟨p1, ?_, later, ?_, ?_⟩
      · show ∀ r' ∈ (peekRecord g s r).1.pending, _
        rw [p3]; exact h.whole
      · show Gives g (peekRecord g s r).1.lead ((peekRecord g s r).1.pending ++ (peekRecord g s r).1.queue) later
        rw [hl, p3, p4]; exact hg
      · show bs = (peekRecord g s r).1.held ++ later
        rw [held_nil p2, he, held_nil h1]

theorem inputs_append (a b : List Out) : inputs (a ++ b) = inputs a ++ inputs b := List.filter_append ..

theorem step_inv {g : Cfg} (hp : Plain g.keys) {s : St} {bs : List Nat} (h : Inv g s bs) (hb : ∀ b ∈ bs, b ≤ 0xFD) {o : Op} (ho : Calm o) :
    ∃ bs', Inv g (step g s o).1 bs' ∧ inputs (step g s o).2.toList ++ bs'.map special = bs.map special ∧ ∀ b ∈ bs', b ≤ 0xFD := by
  cases o with
  | available n => exact ⟨bs, available_inv h n, rfl, hb⟩
  | select c n =>
    have : c = [] := ho
    subst this
    exact ⟨bs, select_inv hp h n, rfl, hb⟩
  | read r => exact read_inv hp h hb r
  | peek => exact ⟨bs, peek_inv h, rfl, hb⟩

theorem run_inv {g : Cfg} (hp : Plain g.keys) : ∀ (ops : List Op) (s : St) (bs : List Nat), Inv g s bs → (∀ b ∈ bs, b ≤ 0xFD) →
    (∀ o ∈ ops, Calm o) → ∃ bs', Inv g (run g s ops).1 bs' ∧ inputs (run g s ops).2 ++ bs'.map special = bs.map special ∧ ∀ b ∈ bs', b ≤ 0xFD := by
  intro ops
  induction ops with
  | nil => intro s bs h hb _; exact ⟨bs, h, rfl, hb⟩
  | cons o os ih =>
    intro s bs h hb hc
    obtain ⟨b1, i1, e1, hb1⟩ := step_inv hp h hb (hc o (List.mem_cons_self ..))
    obtain ⟨b2, i2, e2, hb2⟩ := ih _ b1 i1 hb1 (fun o' ho => hc o' (List.mem_cons_of_mem _ ho))
    refine ⟨b2, i2, ?_, hb2⟩
    show inputs ((step g s o).2.toList ++ (run g (step g s o).1 os).2) ++ _ = _
    rw [inputs_append, List.append_assoc, e2, e1]

end Clink.TermIn
