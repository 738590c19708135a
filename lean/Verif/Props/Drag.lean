import Verif.Model.Drag
import Verif.Spec.Drag

/-! C74: dragging scrolls at most every 15 milliseconds, and faster after one and after two seconds. -/

namespace Clink.Drag

open Spec (History since Pause Began speed Ordered)

/-- What can happen after `clear` at time `c`: mouse events, which scroll only if `can_scroll`. -/
inductive Run (c : Nat) : History → St → Prop
  | start (s : St) : Run c [] (clear c s)
  | event {h : History} {s : St} (t : Nat) (x : Bool) : Run c h s → (x = true → (onInput t s).can = true) → Run c ((t, x) :: h) (event t x s)

/-- No event is 2^32 milliseconds (49.7 days) or more after the last scrolling. -/
def Near (c : Nat) : History → Prop
  | [] => True
  | (t, _) :: h => since c t h < 4294967296 ∧ Near c h

theorem speed_eq (d : Nat) : rate d = speed d := by
  unfold rate speed
  by_cases h1 : d > 2000
  · rw [if_pos h1, if_neg (by omega), if_neg (by omega)]
  · rw [if_neg h1]
    by_cases h2 : d > 1000
    · rw [if_pos h2, if_neg (by omega), if_pos (by omega)]
    · rw [if_neg h2, if_pos (by omega)]

theorem mk_scroll (a b : Nat) (c : Bool) (d : Option Nat) : (St.mk a b c d).scroll = a := rfl
theorem mk_accel (a b : Nat) (c : Bool) (d : Option Nat) : (St.mk a b c d).accel = b := rfl
theorem mk_can (a b : Nat) (c : Bool) (d : Option Nat) : (St.mk a b c d).can = c := rfl
theorem mk_speed (a b : Nat) (c : Bool) (d : Option Nat) : (St.mk a b c d).speed = d := rfl

theorem input_fields (t : Nat) (s : St) : (onInput t s).scroll = s.scroll ∧ (onInput t s).can = decide (sub (tick t) s.scroll > 15) ∧
    (onInput t s).accel = (if sub (tick t) s.scroll > 250 then tick t else s.accel) ∧
    (onInput t s).speed = some (speed (sub (tick t) (onInput t s).accel)) := by
  refine ⟨?_, ?_, ?_, ?_⟩
  · rw [onInput, mk_scroll]
  · rw [onInput, mk_can, canAt]
  · rw [onInput, mk_accel, accelAt]
  · rw [← speed_eq, onInput, mk_speed, mk_accel]

theorem sub_tick {t u : Nat} (h : u ≤ t) : sub (tick t) (tick u) = (t - u) % 4294967296 := by
  unfold sub tick W
  omega

theorem scroll_since {c : Nat} {h : History} {s : St} (hr : Run c h s) (ho : Ordered c h) :
    ∀ t, (∀ e ∈ h, e.1 ≤ t) → c ≤ t → sub (tick t) s.scroll = since c t h % 4294967296 := by
  induction hr with
  | start s =>
    intro t _ hc
    show sub (tick t) (sub (tick c) 65535) = (t - c + 65535) % 4294967296
    unfold sub tick W
    omega
  | @event h s u x _ _ ih =>
    intro t ht hc
    cases x with
    | true => exact sub_tick (ht (u, true) (by simp))
    | false =>
      show sub (tick t) (onInput u s).scroll = since c t h % 4294967296
      rw [(input_fields u s).1]
      exact ih ho.2.2 t (fun e he => ht e (List.mem_cons_of_mem _ he)) hc

/-- The list may scroll exactly if more than 15 milliseconds have passed since it last did. -/
theorem C74_can {c t : Nat} {x : Bool} {h : History} {s : St} (hr : Run c h s) (ho : Ordered c ((t, x) :: h)) (hn : Near c ((t, x) :: h)) :
    (onInput t s).can = decide (15 < since c t h) := by
  have e := scroll_since hr ho.2.2 t ho.1 ho.2.1
  have n := hn.1
  rw [(input_fields t s).2.1, e]
  apply decide_eq_decide.2
  omega

/-- Scrolling is never less than 16 milliseconds after scrolling. -/
theorem C74_apart {c t : Nat} {h : History} {s : St} (hr : Run c ((t, true) :: h) s) (ho : Ordered c ((t, true) :: h)) : 15 < since c t h := by
  cases hr with
  | event _ _ h1 h2 =>
    rename_i s0
    have e := scroll_since h1 ho.2.2 t ho.1 ho.2.1
    have := h2 rfl
    rw [(input_fields t s0).2.1] at this
    have := of_decide_eq_true this
    rw [e] at this
    have := Nat.mod_le (since c t h) 4294967296
    omega

theorem accel_began {c : Nat} {h : History} {s : St} (hr : Run c h s) (ho : Ordered c h) (hn : Near c h) : ∀ b, Began c b h → s.accel = tick b := by
  induction hr with
  | start s =>
    intro b hb
    cases hb
  | @event h s u x h1 _ ih =>
    intro b hb
    have e := scroll_since h1 ho.2.2 u ho.1 ho.2.1
    have n := hn.1
    have ea : (event u x s).accel = (onInput u s).accel := by
      unfold event
      cases x <;> rfl
    rw [ea, (input_fields u s).2.2.1, e]
    cases hb with
    | now hp =>
      unfold Pause at hp
      rw [if_pos (by omega)]
    | since hp hb =>
      unfold Pause at hp
      rw [if_neg (by omega)]
      exact ih ho.2.2 hn.2 b hb

theorem began_le {c b : Nat} {h : History} (hb : Began c b h) : ∃ e ∈ h, e.1 = b := by
  induction hb with
  | now _ => exact ⟨_, List.mem_cons_self, rfl⟩
  | since _ _ ih =>
    obtain ⟨e, he, hh⟩ := ih
    exact ⟨e, List.mem_cons_of_mem _ he, hh⟩

/-- The speed is 1, 3, or 10, and depends on how long ago the scrolling began. -/
theorem C74_speed {c t b : Nat} {x : Bool} {h : History} {s : St} (hr : Run c ((t, x) :: h) s) (ho : Ordered c ((t, x) :: h)) (hn : Near c ((t, x) :: h))
    (hb : Began c b ((t, x) :: h)) (hl : t - b < 4294967296) : s.speed = some (speed (t - b)) := by
  have ea := accel_began hr ho hn b hb
  obtain ⟨e, he, rfl⟩ := began_le hb
  have hle : e.1 ≤ t := by
    rcases List.mem_cons.1 he with rfl | he
    · exact Nat.le_refl _
    · exact ho.1 e he
  cases hr with
  | event _ _ h1 h2 =>
    rename_i s0
    have e1 : (event t x s0).accel = (onInput t s0).accel := by
      unfold event
      cases x <;> rfl
    have e2 : (event t x s0).speed = (onInput t s0).speed := by
      unfold event
      cases x <;> rfl
    rw [e2, (input_fields t s0).2.2.2, ← e1, ea, sub_tick hle, Nat.mod_eq_of_lt hl]

/-- After the first event there is always exactly one time when the scrolling began. -/
theorem C74_began {c : Nat} {h : History} (hh : h ≠ []) : ∃ b, Began c b h ∧ ∀ b', Began c b' h → b' = b := by
  induction h with
  | nil => exact absurd rfl hh
  | cons e h ih =>
    obtain ⟨t, x⟩ := e
    by_cases hp : Pause c t h
    · refine ⟨t, .now hp, fun b' hb' => ?_⟩
      cases hb' with
      | now _ => rfl
      | since hn _ => exact absurd hp hn
    · have hne : h ≠ [] := by
        rintro rfl
        apply hp
        show 250 < t - c + 65535
        omega
      obtain ⟨b, hb, hu⟩ := ih hne
      refine ⟨b, .since hp hb, fun b' hb' => ?_⟩
      cases hb' with
      | now hq => exact absurd hq hp
      | since _ hb' => exact hu b' hb'

theorem since_false {c t : Nat} {h : History} (hf : ∀ e ∈ h, e.2 = false) : since c t h = t - c + 65535 := by
  induction h with
  | nil => rfl
  | cons e h ih =>
    obtain ⟨u, x⟩ := e
    have : x = false := hf (u, x) (by simp)
    subst this
    exact ih fun e he => hf e (List.mem_cons_of_mem _ he)

/-- In the popup list, where `on_scroll` is not called, every event may scroll and the speed is always 1: it does not get faster
however long one drags, and there is no limit. -/
theorem C74_popup_violated {c t : Nat} {x : Bool} {h : History} {s : St} (hr : Run c ((t, x) :: h) s) (ho : Ordered c ((t, x) :: h))
    (hn : Near c ((t, x) :: h)) (hf : ∀ e ∈ (t, x) :: h, e.2 = false) : s.speed = some 1 ∧ s.can = true := by
  have hs := since_false (c := c) (t := t) (h := h) fun e he => hf e (List.mem_cons_of_mem _ he)
  have hx : x = false := hf (t, x) (by simp)
  subst hx
  refine ⟨?_, ?_⟩
  · have hb : Began c t ((t, false) :: h) := .now (by unfold Pause; omega)
    rw [C74_speed hr ho hn hb (by omega), Nat.sub_self]
    rfl
  · cases hr with
    | event _ _ h1 h2 =>
      rename_i s0
      have := C74_can h1 ho hn
      show (onInput t s0).can = true
      rw [this, hs]
      exact decide_eq_true (by omega)

/-! ### Examples -/

def z : St := ⟨0, 0, false, none⟩

/-- The state after some events. -/
def final (c : Nat) : History → St
  | [] => clear c z
  | (t, x) :: h => event t x (final c h)

/-- The events scroll only if they can. -/
def ok (c : Nat) : History → Bool
  | [] => true
  | (t, x) :: h => (!x || (onInput t (final c h)).can) && ok c h

theorem run_final (c : Nat) (h : History) (hk : ok c h = true) : Run c h (final c h) := by
  induction h with
  | nil => exact .start z
  | cons e h ih =>
    obtain ⟨t, x⟩ := e
    simp only [ok, Bool.and_eq_true, Bool.or_eq_true, Bool.not_eq_true'] at hk
    refine .event t x (ih hk.2) fun hx => ?_
    rcases hk.1 with h1 | h1
    · rw [hx] at h1
      cases h1
    · exact h1

instance (c : Nat) : (h : History) → Decidable (Ordered c h)
  | [] => isTrue trivial
  | (_, _) :: h => @instDecidableAnd _ _ _ (@instDecidableAnd _ _ _ (instDecidableOrdered c h))

instance (c : Nat) : (h : History) → Decidable (Near c h)
  | [] => isTrue trivial
  | (_, _) :: h => @instDecidableAnd _ _ _ (instDecidableNear c h)

instance (c t : Nat) (h : History) : Decidable (Pause c t h) := inferInstanceAs (Decidable (_ < _))

/-- Cleared at 4294966296, one second before the tick count wraps; events 1000 (scrolls), 1010, 1100, 1300, …, 2100 milliseconds later. -/
def hist : History :=
  [(4294968396, true), (4294968196, true), (4294967996, true), (4294967796, true), (4294967596, true), (4294967396, true), (4294967306, false),
   (4294967296, true)]

theorem hist_run : Run 4294966296 hist (final 4294966296 hist) := run_final _ _ (by decide +kernel)

/-- The time wraps while the list is scrolled, and the speed is 3 after 1.1 seconds. -/
example : (final 4294966296 hist).speed = some (speed (4294968396 - 4294967296)) :=
  C74_speed hist_run (by decide +kernel) (by decide +kernel)
    (.since (by decide +kernel) (.since (by decide +kernel) (.since (by decide +kernel) (.since (by decide +kernel)
      (.since (by decide +kernel) (.since (by decide +kernel) (.since (by decide +kernel) (.now (by decide +kernel)))))))))
    (by decide +kernel)

example : (final 4294966296 hist).speed = some 3 ∧ tick 4294967296 = 0 := by decide +kernel

example : 15 < since 4294966296 4294968396 hist.tail := C74_apart hist_run (by decide +kernel)

/-- 10 milliseconds after scrolling. -/
example : (onInput 2010 (final 1000 [(2000, true)])).can = decide (15 < since 1000 2010 [(2000, true)]) :=
  C74_can (x := false) (run_final 1000 _ (by decide +kernel)) (by decide +kernel) (by decide +kernel)

example : since 1000 2010 [(2000, true)] = 10 := by decide +kernel

/-- Events without `on_scroll`, 3 seconds and 1 millisecond apart. -/
example : (final 1000 [(5001, false), (5000, false), (2000, false)]).speed = some 1 :=
  (C74_popup_violated (run_final 1000 _ (by decide +kernel)) (by decide +kernel) (by decide +kernel) (by decide +kernel)).1

/-- `Near` is needed: exactly 49.7 days after the last scrolling an event does not scroll. -/
theorem C74_wrap_violated : (onInput 4294969296 (final 1000 [(2000, true)])).can = false ∧ since 1000 4294969296 [(2000, true)] = 4294967296 := by
  decide +kernel

end Clink.Drag
