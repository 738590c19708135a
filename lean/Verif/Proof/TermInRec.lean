import Verif.Proof.TermIn

/-!
What one record makes of the state, if it is processed and if it is only looked at.
-/

namespace Clink.TermIn
open Spec Clink.Utf

theorem digits_short {n : Nat} (h : n < 1000) : (Color.digits n).length ≤ 3 := by
  rw [Color.digits]; split
  · simp
  · rw [Color.digits]; split
    · simp
    · rw [Color.digits, if_pos (by omega)]; simp

theorem digits_one {n : Nat} (h : n < 10) : (Color.digits n).length = 1 := by
  rw [Color.digits, if_pos h]; rfl

theorem letter_short (c i : Nat) : (letterSeq c i).length ≤ 6 := by unfold letterSeq csi; split <;> simp
theorem tilde_short (d : List Nat) (i : Nat) : (tildeSeq d i).length ≤ d.length + 5 := by
  unfold tildeSeq csi; split <;> simp
theorem fnDigits_short (n : Nat) : (fnDigits n).length ≤ 2 := by
  unfold fnDigits
  generalize n - 4 = m
  match m with
  | 0 | 1 | 2 | 3 | 4 | 5 | 6 | 7 => simp
  | m + 8 => simp
theorem kfx_short (i n : Nat) : (kfx i n).length ≤ 8 := by
  unfold kfx
  have h1 := letter_short (80 + n) (i % 4)
  have h2 := tilde_short (fnDigits n) (i % 4)
  have h3 := fnDigits_short n
  dsimp only
  repeat' split
  all_goals (first | (simp only [List.length_cons, List.length_nil]; omega) | omega)
theorem mok_short (i : Nat) (k : List Nat) : (mok i k).length = k.length + 8 := by unfold mok csi; simp

theorem kbks_short (i : Nat) : (kbks i).length ≤ 9 := by
  unfold kbks
  have := mok_short i [56]
  repeat' split
  all_goals (first | (rw [this]; decide) | decide)

theorem named_short {vk i : Nat} {s : List Nat} (h : namedSeq vk i = some s) : s.length ≤ 16 := by
  have hl : ∀ c, letterSeq c i = s → s.length ≤ 16 := fun c e => e ▸ Nat.le_trans (letter_short c i) (by omega)
  have ht : ∀ d, tildeSeq [d] i = s → s.length ≤ 16 := fun d e => e ▸ Nat.le_trans (tilde_short [d] i) (by simp)
  have hb : kbks i = s → s.length ≤ 16 := fun e => e ▸ Nat.le_trans (kbks_short i) (by omega)
  unfold namedSeq at h
  repeat' split at h
  all_goals first
    | (injection h with h; first | exact hl _ h | exact ht _ h | exact hb h)
    | cases h

theorem xterm_small (f : Flags) : xtermModifier f < 10 := by
  unfold xtermModifier; split <;> split <;> split <;> omega

theorem recognized_small {vk : Nat} (h : vkRecognized vk = true) : vk < 1000 := by
  unfold vkRecognized at h
  simp at h
  omega

theorem actRest_short {g : Cfg} {vk sc ch : Nat} {f : Flags} :
    (∀ s, actRest g vk sc ch f = .seq s → s.length ≤ 16) ∧ ∀ cs, actRest g vk sc ch f = .chars cs → cs.length ≤ 2 := by
  unfold actRest
  split
  · rename_i s hs
    exact ⟨fun t ht => (by injection ht with ht; subst ht; exact named_short hs), fun cs h => by cases h⟩
  · split
    · refine ⟨fun t ht => (by cases ht), fun cs h => ?_⟩
      injection h with h; subst h
      split <;> simp
    · split
      · rename_i hr
        refine ⟨fun t ht => ?_, fun cs h => by cases h⟩
        injection ht with ht; subst ht
        have h1 := digits_short (recognized_small hr)
        have h2 := digits_one (xterm_small f)
        split <;> simp [csi] <;> omega
      · exact ⟨fun t ht => (by cases ht), fun cs h => by cases h⟩

theorem actKey_short {g : Cfg} {e : Bool} {vk sc ch : Nat} {f : Flags} :
    (∀ s, actKey g e vk sc ch f = .seq s → s.length ≤ 16) ∧ ∀ cs, actKey g e vk sc ch f = .chars cs → cs.length ≤ 2 := by
  unfold actKey
  dsimp only
  generalize (if ((f.lalt && !f.ralt) && f.ctrl && ch != 0 && g.altgr) = true then _ else f) = f1
  generalize (if ((f.lalt && !f.ralt) && f.ctrl && ch != 0 && !g.altgr) = true then 0 else ch) = ch1
  generalize (if ch1 > 31 ∧ ch1 ≠ 127 ∧ f1.ctrl = true then _ else f1) = f2
  have hseq : ∀ {l : List Nat}, l.length ≤ 16 →
      (∀ s, Act.seq l = .seq s → s.length ≤ 16) ∧ ∀ cs, Act.seq l = .chars cs → cs.length ≤ 2 := by
    intro l hl
    exact ⟨fun s h => (by injection h with h; subst h; exact hl), fun cs h => by cases h⟩
  split
  · apply hseq
    unfold ktab
    have := mok_short (keymodIndex f1) [57]
    split <;> (try split) <;> (try split) <;> simp_all [csi]
  split
  · apply hseq
    unfold kspc
    have := mok_short (keymodIndex f1) [51, 50]
    split <;> (try split) <;> simp_all
  split
  · apply hseq
    unfold kret
    have := mok_short (keymodIndex f1) [49, 51]
    split <;> simp_all
  split
  · exact hseq (by simp [csi])
  split
  · split
    · exact ⟨fun s h => (by cases h), fun cs h => by cases h⟩
    · exact hseq (Nat.le_trans (kfx_short _ _) (by omega))
  split
  · exact hseq (by rw [mok_short]; simp)
  split
  · exact hseq (by rw [mok_short]; simp)
  split
  · refine ⟨fun t ht => (by cases ht), fun cs h => ?_⟩
    injection h with h; subst h
    split <;> simp
  · exact actRest_short

theorem act_short {g : Cfg} {raw e : Bool} {k : Key} :
    (∀ s, act g raw e k = .seq s → s.length ≤ 16) ∧ ∀ cs, act g raw e k = .chars cs → cs.length ≤ 2 := by
  unfold act
  split
  · exact ⟨fun s h => (by cases h), fun cs h => by cases h⟩
  split
  · split
    · exact ⟨fun s h => (by cases h), fun cs h => by injection h with h; subst h; simp⟩
    · exact ⟨fun s h => (by cases h), fun cs h => by cases h⟩
  split
  · exact ⟨fun s h => (by cases h), fun cs h => by cases h⟩
  split
  · exact ⟨fun s h => (by injection h with h; subst h; simp [csi]), fun cs h => by cases h⟩
  · exact actKey_short

/-- Outside of requests. -/
structure St.Ok (s : St) : Prop extends s.Ring where
  sending : s.sending = false
  force : s.force = false

theorem Same.ok {s t : St} (h : s.Ok) (k : Same s t) (r : t.Ring) : t.Ok := ⟨r, k.6.trans h.2, k.7.trans h.3⟩

theorem processKey_eq {g : Cfg} {s : St} (h : s.Ok) (hc : s.count = 0) (k : Key) :
    processKey g s k = s.apply (act g false true k) := by
  unfold processKey; rw [h.force, h.sending, hc]; rfl

/-- The bytes of one chunk pass through the filter. -/
theorem filter_heard {g : Cfg} (hp : Plain g.keys) {s : St} (h : s.Ring) (h0 : s.lead = 0) :
    (filterUnbound g s 0).Ring ∧ Same s (filterUnbound g s 0) ∧ (filterUnbound g s 0).lead = 0 ∧
      (filterUnbound g s 0).held = heard g.keys s.held := by
  unfold filterUnbound heard
  cases hk : g.keys with
  | none =>
    refine ⟨h, Same.refl s, h0, ?_⟩
    dsimp only
    split
    · assumption
    · rfl
  | some t =>
    dsimp only
    have hr : ({ s with count := 0 } : St).Ring := ⟨h.len, h.head, by simp⟩
    by_cases hc : s.count = 0
    · rw [if_pos (show s.count ≤ 0 by omega), if_pos (held_nil hc)]
      exact ⟨h, Same.refl s, h0, held_nil hc⟩
    · rw [if_neg (show ¬ s.count ≤ 0 by omega), if_neg (show ¬ s.held = [] from fun hh => hc (count_of_held hh))]
      have hch : s.chord (s.count - 0) = s.held := rfl
      rw [hch]
      cases htr : t.translate s.held with
      | some l =>
        have := hp t hk _ _ htr
        have ha := pushAscii hr h0 this.2 (by show 0 + _ ≤ 16; omega)
        refine ⟨ha.1, ⟨ha.2.1.1, ha.2.1.2, ha.2.1.3, ha.2.1.4, ha.2.1.5, ha.2.1.6, ha.2.1.7⟩, ha.2.2.1, ?_⟩
        have h4 := ha.2.2.2
        rw [held_nil (s := { s with count := 0 }) rfl] at h4
        exact h4
      | none =>
        dsimp only
        by_cases hb : t.bound s.held = true
        · rw [if_pos hb, if_pos hb]; exact ⟨h, Same.refl s, h0, rfl⟩
        · rw [if_neg hb, if_neg hb]
          exact ⟨hr, ⟨rfl, rfl, rfl, rfl, rfl, rfl, rfl⟩, h0, held_nil rfl⟩

theorem noneOf {g : Cfg} {k : Key} {s : St} (h : s.Ok) (hc : s.count = 0) (ha : act g false true k = .none) : processKey g s k = s := by
  rw [processKey_eq h hc, ha]; rfl

theorem seqOf {g : Cfg} {k : Key} {s : St} (h : s.Ok) (hc : s.count = 0) {l : List Nat} (ha : act g false true k = .seq l) :
    (processKey g s k).Ring ∧ Same s (processKey g s k) ∧ (processKey g s k).lead = 0 ∧ (processKey g s k).held = l := by
  rw [processKey_eq h hc, ha]
  have := pushSeq_held h.1 l (by have := act_short.1 l ha; omega)
  rw [held_nil hc] at this
  exact this

theorem charsOf {g : Cfg} {k : Key} {s : St} (h : s.Ok) (hc : s.count = 0) (h0 : s.lead = 0) {cs : List Nat}
    (ha : act g false true k = .chars cs) (hu : ∀ c ∈ cs, Unit c) :
    (processKey g s k).Ring ∧ Same s (processKey g s k) ∧ (processKey g s k).lead = 0 ∧
      (processKey g s k).held = cs.flatMap specUtf8 := by
  rw [processKey_eq h hc, ha]
  have := pushVals h.1 h0 hu (by have := act_short.2 cs ha; omega)
  rw [held_nil hc] at this
  exact this

theorem leadOf {g : Cfg} {k : Key} {s : St} (h : s.Ok) (hc : s.count = 0) {hi : Nat} (ha : act g false true k = .chars [hi])
    (hh : Lead hi) : processKey g s k = { s with lead := hi } := by
  rw [processKey_eq h hc, ha]
  show pushVal s hi = _
  unfold pushVal
  rw [if_neg (by have := hh.1; omega), if_pos (isLead_iff.2 hh)]

theorem trailOf {g : Cfg} {k : Key} {s : St} (h : s.Ok) (hc : s.count = 0) {lo : Nat} (ha : act g false true k = .chars [lo])
    (hh : Lead s.lead) (hl : Trail lo) :
    (processKey g s k).Ring ∧ Same s (processKey g s k) ∧ (processKey g s k).lead = 0 ∧
      (processKey g s k).held = specUtf8 (pair s.lead lo) := by
  rw [processKey_eq h hc, ha]
  have he : s.apply (.chars [lo]) = pushVal s lo := rfl
  have := pushVal_trail h.1 rfl hh hl (by omega)
  rw [held_nil hc, List.nil_append] at this
  rw [he]
  exact this

theorem exitOf {g : Cfg} {k : Key} {s : St} (h : s.Ok) (hc : s.count = 0) (h0 : s.lead = 0) (ha : act g false true k = .exit) :
    (processKey g s k).Ring ∧ Same s (processKey g s k) ∧ (processKey g s k).lead = 0 ∧ (processKey g s k).held = [0xFD] := by
  rw [processKey_eq h hc, ha]
  refine ⟨⟨by simp [St.apply, h.len], by simp [St.apply], by simp [St.apply]⟩, ⟨rfl, rfl, rfl, rfl, rfl, rfl, rfl⟩, h0, ?_⟩
  have : 0 < s.buf.length := by rw [h.len]; omega
  simp [St.apply, St.held, St.chord, this]

theorem mouse_quiet {g : Cfg} {m : Mouse} (h : Quiet g (.mouse m)) (a b : Bool) : mouseAct g a b m = .none := by
  have hk : ∀ t : MouseType, (g.keys.any fun k => k.mouse t) = false := by
    intro t
    cases hg : g.keys with
    | none => rfl
    | some k => simp [h k hg t]
  unfold mouseAct
  dsimp only
  split
  · rfl
  · rw [hk]; rfl

/-- What one record makes of the state when it is processed. -/
structure Step (g : Cfg) (s : St) (r : Record) (rs : List Record) (bs : List Nat) : Prop where
  ok : (processRecord g s r).1.Ok
  pending : (processRecord g s r).1.pending = s.pending
  queue : (processRecord g s r).1.queue = s.queue
  gives : ∃ bs', Gives g (processRecord g s r).1.lead rs bs' ∧ bs = (processRecord g s r).1.held ++ bs'
  ret : (processRecord g s r).2 = false → (processRecord g s r).1.count = 0

/-- What happens when a record is only looked at. -/
structure Look (g : Cfg) (s : St) (r : Record) (rs : List Record) (bs : List Nat) : Prop where
  ok : (peekRecord g s r).1.Ok
  count : (peekRecord g s r).1.count = 0
  pending : (peekRecord g s r).1.pending = s.pending
  queue : (peekRecord g s r).1.queue = s.queue
  yes : (peekRecord g s r).2.1 = true → (peekRecord g s r).1.lead = s.lead
  no : (peekRecord g s r).2.1 = false → Gives g (peekRecord g s r).1.lead rs bs

theorem step_chunk {g : Cfg} (hp : Plain g.keys) {s : St} (h : s.Ok) (hc : s.count = 0) {k : Key} {c : List Nat} {rs : List Record} {bs : List Nat}
    (hm : (processKey g s k).Ring ∧ Same s (processKey g s k) ∧ (processKey g s k).lead = 0 ∧ (processKey g s k).held = c)
    (hr : Gives g 0 rs bs) : Step g s (.key k) rs (heard g.keys c ++ bs) := by
  obtain ⟨m1, m2, m3, m4⟩ := hm
  obtain ⟨f1, f2, f3, f4⟩ := filter_heard hp m1 m3
  have hsame := m2.trans f2
  have hok := hsame.ok h f1
  have he : processRecord g s (.key k) = (filterUnbound g (processKey g s k) 0, decide ((filterUnbound g (processKey g s k) 0).count > 0) || false) := by
    unfold processRecord
    simp only [hc, hok.sending, Bool.false_eq_true, if_false]
  refine ⟨?_, ?_, ?_, ?_, ?_⟩ <;> rw [he]
  · exact hok
  · exact hsame.3
  · exact hsame.5
  · exact ⟨bs, by rw [f3]; exact hr, by rw [f4, m4]⟩
  · intro hf; simp at hf; exact hf

theorem look_chunk {g : Cfg} {s : St} (h : s.Ok) (hc : s.count = 0) {k : Key} {c : List Nat} {rs : List Record} {bs : List Nat}
    (hm : (processKey g s k).Ring ∧ Same s (processKey g s k) ∧ (processKey g s k).lead = 0 ∧ (processKey g s k).held = c)
    (hn : c = [] → s.lead = 0 ∧ Gives g 0 rs bs) : Look g s (.key k) rs bs := by
  obtain ⟨m1, m2, m3, m4⟩ := hm
  have hl : (if s.lead ≠ 0 then s.lead else (processKey g s k).lead) = s.lead := by
    rw [m3]; split
    · rfl
    · rename_i hh; omega
  refine ⟨⟨⟨m1.len, m1.head, by show s.count ≤ 16; omega⟩, m2.6.trans h.sending, m2.7.trans h.force⟩, hc, m2.3, m2.5, fun _ => hl, fun hb => ?_⟩
  have hb : (processKey g s k).count ≤ s.count := by
    have : decide ((processKey g s k).count > s.count) = false := hb
    simpa using this
  have h0 : (processKey g s k).held = [] := held_nil (by omega)
  have := hn (m4 ▸ h0)
  show Gives g (if s.lead ≠ 0 then s.lead else (processKey g s k).lead) rs bs
  rw [hl, this.1]; exact this.2

theorem processed {g : Cfg} (hp : Plain g.keys) {s : St} (h : s.Ok) (hc : s.count = 0) {r : Record} {rs : List Record} {bs : List Nat}
    (hg : Gives g s.lead (r :: rs) bs) : Step g s r rs bs := by
  generalize hl : s.lead = l at hg
  generalize hrr : r :: rs = rrs at hg
  cases hg with
  | nil => cases hrr
  | @quiet l' r' rs' bs' hq hr =>
    injection hrr with h1 h2; subst h1; subst h2; subst hl
    cases r with
    | key k =>
      have hn := noneOf h hc hq
      have he : processRecord g s (.key k) = (s, false) := by
        unfold processRecord
        simp only [hn]
        have : filterUnbound g s s.count = s := by
          unfold filterUnbound; split
          · rfl
          · rw [if_pos (by omega)]
        simp [this, h.sending]
      refine ⟨?_, ?_, ?_, ?_, ?_⟩ <;> rw [he]
      · exact h
      · exact ⟨bs, hr, by rw [held_nil hc]; rfl⟩
      · intro _; exact hc
    | mouse m =>
      have hm := mouse_quiet hq s.prevLeft s.prevRight
      have he : processRecord g s (.mouse m) = ({ s with prevLeft := m.left, prevRight := m.right }, false) := by
        unfold processRecord processMouse
        simp [hm, St.apply, h.sending]
      refine ⟨?_, ?_, ?_, ?_, ?_⟩ <;> rw [he]
      · exact ⟨⟨h.len, h.head, h.1.count⟩, h.sending, h.force⟩
      · exact ⟨bs, hr, by rw [held_nil (show ({ s with prevLeft := m.left, prevRight := m.right } : St).count = 0 from hc)]; rfl⟩
      · intro _; exact hc
    | size c =>
      have he : processRecord g s (.size c) = (s, c) := by unfold processRecord; simp [h.sending]
      refine ⟨?_, ?_, ?_, ?_, ?_⟩ <;> rw [he]
      · exact h
      · exact ⟨bs, hr, by rw [held_nil hc]; rfl⟩
      · intro _; exact hc
    | other => exact ⟨h, rfl, rfl, ⟨bs, hr, by show bs = s.held ++ bs; rw [held_nil hc]; rfl⟩, fun _ => hc⟩
  | seq ha hr => injection hrr with h1 h2; subst h1; subst h2; exact step_chunk hp h hc (seqOf h hc ha) hr
  | chars ha hu hr => injection hrr with h1 h2; subst h1; subst h2; exact step_chunk hp h hc (charsOf h hc hl ha hu) hr
  | @lead k hi rs' bs' ha hh hr =>
    injection hrr with h1 h2; subst h1; subst h2
    have hn := leadOf h hc ha hh
    have he : processRecord g s (.key k) = ({ s with lead := hi }, false) := by
      have hf : filterUnbound g { s with lead := hi } s.count = { s with lead := hi } := by
        unfold filterUnbound; split
        · rfl
        · rw [if_pos (by show s.count ≤ s.count; omega)]
      have hd : processRecord g s (.key k) = (if (filterUnbound g (processKey g s k) s.count).sending then
          { filterUnbound g (processKey g s k) s.count with processed := (filterUnbound g (processKey g s k) s.count).processed ++ [.key k] }
          else filterUnbound g (processKey g s k) s.count, decide ((filterUnbound g (processKey g s k) s.count).count > s.count) || false) := rfl
      rw [hd, hn, hf]
      simp [h.sending]
    refine ⟨?_, ?_, ?_, ?_, ?_⟩ <;> rw [he]
    · exact ⟨Ring.lead h.1 hi, h.sending, h.force⟩
    · exact ⟨bs, hr, by rw [held_nil (show ({ s with lead := hi } : St).count = 0 from hc)]; rfl⟩
    · intro _; exact hc
  | trail ha hh htr hr =>
    injection hrr with h1 h2; subst h1; subst h2; subst hl
    exact step_chunk hp h hc (trailOf h hc ha hh htr) hr
  | exit ha hr => injection hrr with h1 h2; subst h1; subst h2; exact step_chunk hp h hc (exitOf h hc hl ha) hr

theorem utf8_ne (c : Nat) : specUtf8 c ≠ [] := by
  unfold specUtf8; split <;> (try split) <;> (try split) <;> simp

theorem looked {g : Cfg} {s : St} (h : s.Ok) (hc : s.count = 0) {r : Record} {rs : List Record} {bs : List Nat}
    (hg : Gives g s.lead (r :: rs) bs) : Look g s r rs bs := by
  generalize hl : s.lead = l at hg
  generalize hrr : r :: rs = rrs at hg
  cases hg with
  | nil => cases hrr
  | @quiet l' r' rs' bs' hq hr =>
    injection hrr with h1 h2; subst h1; subst h2; subst hl
    cases r with
    | key k =>
      have hn := noneOf h hc hq
      have he : (peekRecord g s (.key k)).1 = s ∧ (peekRecord g s (.key k)).2.1 = false := by
        unfold peekRecord
        simp only [hn]
        refine ⟨?_, by simp⟩
        unfold revert
        simp
      refine ⟨?_, ?_, ?_, ?_, ?_, ?_⟩ <;> rw [he.1]
      · exact h
      · exact hc
      · intro _; rfl
      · intro _; exact hr
    | mouse m =>
      have hm := mouse_quiet hq s.prevLeft s.prevRight
      have he : (peekRecord g s (.mouse m)).1 = { s with prevLeft := m.left, prevRight := m.right } ∧ (peekRecord g s (.mouse m)).2.1 = false := by
        unfold peekRecord processMouse
        simp only [hm, St.apply]
        refine ⟨?_, by simp⟩
        unfold revert
        simp
      refine ⟨?_, ?_, ?_, ?_, ?_, ?_⟩ <;> rw [he.1]
      · exact ⟨⟨h.len, h.head, h.1.count⟩, h.sending, h.force⟩
      · exact hc
      · intro _; rfl
      · intro _; exact hr
    | size c => exact ⟨h, hc, rfl, rfl, fun _ => rfl, fun hb => by cases hb⟩
    | other => exact ⟨h, hc, rfl, rfl, fun _ => rfl, fun _ => hr⟩
  | @seq k q rs' bs' ha hr =>
    injection hrr with h1 h2; subst h1; subst h2
    exact look_chunk h hc (seqOf h hc ha) (fun hn => ⟨hl, by subst hn; simpa [heard] using hr⟩)
  | @chars k q rs' bs' ha hu hr =>
    injection hrr with h1 h2; subst h1; subst h2
    exact look_chunk h hc (charsOf h hc hl ha hu) (fun hn => ⟨hl, by rw [hn]; simpa [heard] using hr⟩)
  | @lead k hi rs' bs' ha hh hr =>
    injection hrr with h1 h2; subst h1; subst h2
    have hn := leadOf h hc ha hh
    have he : (peekRecord g s (.key k)).1 = { s with lead := hi } ∧ (peekRecord g s (.key k)).2.1 = false := by
      unfold peekRecord
      simp only [hn]
      refine ⟨?_, by simp⟩
      unfold revert
      simp [hl]
    refine ⟨?_, ?_, ?_, ?_, ?_, ?_⟩ <;> rw [he.1]
    · exact ⟨Ring.lead h.1 hi, h.sending, h.force⟩
    · exact hc
    · rw [he.2]; intro hx; cases hx
    · intro _; exact hr
  | trail ha hh htr hr =>
    injection hrr with h1 h2; subst h1; subst h2; subst hl
    exact look_chunk h hc (trailOf h hc ha hh htr) (fun hn => absurd hn (utf8_ne _))
  | exit ha hr =>
    injection hrr with h1 h2; subst h1; subst h2
    exact look_chunk h hc (exitOf h hc hl ha) (fun hn => by cases hn)

end Clink.TermIn
