import Verif.Proof.FindLine
/-
Theorems about searching the screen for a line (C63).

`Up scr P k i` is true if `i` is the nearest line from `k` upwards with `P`, and `Down scr P k e i` downwards; lines are counted from 0 there,
and from 1 by Lua.  `startLine` is where the search starts: the line given, or the first or last line if it is outside.
-/
namespace Clink.FindLine
open Spec

variable {env : Env} {q : Query} {scr : List Line} {width : Nat} {num arg : Int}

/-- The line at which a search starts is the line that was asked for, if there is such a line. -/
theorem C63_start (h : 1 ≤ arg ∧ arg ≤ num) : (startLine num arg : Int) + 1 = arg := by
  unfold startLine; omega

example : startLine 3 2 = 1 := by decide
example : startLine 3 7 = 2 := by decide
example : startLine 3 (-7) = 0 := by decide

theorem plain_decides {t : List Nat} (ht : q.text = some t) (hre : q.useRegex = false) (hic : q.icase = false) (hat : q.attrs = [])
    (hz : ∀ l ∈ scr, 0 ∉ l.chars) : Decides env q none scr (fun l => HasText env.space l t) (fun _ _ => True) := by
  intro l hl start len _
  refine ⟨true, by unfold attrPart; rw [if_pos hat], ?_, trivial⟩
  have hnd : needle env q t = t := by unfold needle; rw [if_neg (by rw [hic]; simp)]
  have hcs : cstr (trim env l.chars) = trim env l.chars := cstr_id (fun h => hz l hl (trim_sub _ h))
  have htx : (textPart env q none l start len).1 = true ↔ ∃ p, wcsstr (trim env l.chars) t = some p := by
    unfold textPart
    simp only [ht, hnd, hcs]
    cases wcsstr (trim env l.chars) t <;> simp
  rw [htx, wcsstr_iff]
  constructor
  · rintro ⟨h, _⟩
    exact ⟨_, trim_trimmed _, h⟩
  · rintro ⟨u, hu, h⟩
    rw [trimmed_unique hu (trim_trimmed (env := env) l.chars)] at h
    exact ⟨h, rfl⟩

theorem findLine_plain (h : ∀ t, q.text = some t → t = [] ∨ q.useRegex = false) (line distance : Int) :
    findLine env q scr width line distance = go env q none scr (if distance > 0 then 1 else -1) distance.natAbs line (some 0) width := by
  unfold findLine
  cases ht : q.text with
  | none => rfl
  | some t =>
    have hC : ¬ (t ≠ [] ∧ q.useRegex = true) := by
      rintro ⟨a, b⟩
      rcases h t ht with c | c
      · exact a c
      · rw [c] at b; cases b
    simp only
    rw [if_neg hC]

/-- `console.findprevline` with a text, in the exact case and without attributes: the nearest line with the text at or above the line where
the search starts, and 0 if there is none. -/
theorem C63_prev_text {t : List Nat} (ht : q.text = some t) (hre : q.useRegex = false) (hic : q.icase = false) (hat : q.attrs = [])
    (hz : ∀ l ∈ scr, 0 ∉ l.chars) (hn : 0 < num ∧ num ≤ scr.length) (hr : -32767 ≤ arg ∧ arg ≤ 32768) :
    (∃ i, Up scr (fun l => HasText env.space l t) (startLine num arg) i ∧ findLua env q scr width num arg (-1) = some (i + 1)) ∨
    ((∀ i, ¬ Up scr (fun l => HasText env.space l t) (startLine num arg) i) ∧ findLua env q scr width num arg (-1) = some 0) :=
  (lua_eq (plain_decides ht hre hic hat hz) trivial (findLine_plain (fun _ _ => .inr hre)) (by rw [hat]; exact Nat.zero_le _) hn hr).1

/-- `console.findnextline` with such a text: the nearest line with the text at or below the start, up to and including the line after the last
one; and 0 if there is none, as long as the last line is not the last line of the screen buffer. -/
theorem C63_next_text {t : List Nat} (ht : q.text = some t) (hre : q.useRegex = false) (hic : q.icase = false) (hat : q.attrs = [])
    (hz : ∀ l ∈ scr, 0 ∉ l.chars) (hn : 0 < num ∧ num < scr.length) (hr : -32767 ≤ arg ∧ arg ≤ 32768) :
    (∃ i, Down scr (fun l => HasText env.space l t) (startLine num arg) (num.toNat + 1) i ∧ findLua env q scr width num arg 1 = some (i + 1)) ∨
    ((∀ i, ¬ Down scr (fun l => HasText env.space l t) (startLine num arg) (num.toNat + 1) i) ∧ findLua env q scr width num arg 1 = some 0) := by
  have := (lua_eq (width := width) (plain_decides (env := env) ht hre hic hat hz) trivial (findLine_plain (fun _ _ => .inr hre))
    (by rw [hat]; exact Nat.zero_le _) (num := num) (arg := arg) ⟨hn.1, by omega⟩ hr).2
  rwa [if_pos hn.2] at this

theorem attr_decides (ht : q.text = none) (hat : q.attrs ≠ []) (hw : ∀ l ∈ scr, l.attrs.length = width) :
    Decides env q none scr (fun l => HasAttr l.attrs q.attrs q.mask) (fun s n => s = some 0 ∧ n = width) := by
  rintro l hl start len ⟨rfl, rfl⟩
  have htx : textPart env q none l (some 0) len = (true, some 0, len) := by unfold textPart; simp only [ht]
  rw [htx]
  refine ⟨_, by unfold attrPart; rw [if_neg hat], ?_, rfl, rfl⟩
  have : ((l.attrs.drop 0).take len) = l.attrs := by rw [List.drop_zero, ← hw l hl, List.take_length]
  rw [this]
  unfold HasAttr
  simp

/-- A search for attributes only, upwards: the nearest line with a cell that has one of the attributes. -/
theorem C63_prev_attr (ht : q.text = none) (hat : q.attrs ≠ []) (ha : q.attrs.length ≤ 32) (hw : ∀ l ∈ scr, l.attrs.length = width)
    (hn : 0 < num ∧ num ≤ scr.length) (hr : -32767 ≤ arg ∧ arg ≤ 32768) :
    (∃ i, Up scr (fun l => HasAttr l.attrs q.attrs q.mask) (startLine num arg) i ∧ findLua env q scr width num arg (-1) = some (i + 1)) ∨
    ((∀ i, ¬ Up scr (fun l => HasAttr l.attrs q.attrs q.mask) (startLine num arg) i) ∧ findLua env q scr width num arg (-1) = some 0) :=
  (lua_eq (attr_decides ht hat hw) ⟨rfl, rfl⟩ (findLine_plain (fun t h => by rw [ht] at h; cases h)) ha hn hr).1

/-- The same downwards. -/
theorem C63_next_attr (ht : q.text = none) (hat : q.attrs ≠ []) (ha : q.attrs.length ≤ 32) (hw : ∀ l ∈ scr, l.attrs.length = width)
    (hn : 0 < num ∧ num < scr.length) (hr : -32767 ≤ arg ∧ arg ≤ 32768) :
    (∃ i, Down scr (fun l => HasAttr l.attrs q.attrs q.mask) (startLine num arg) (num.toNat + 1) i ∧ findLua env q scr width num arg 1 = some (i + 1)) ∨
    ((∀ i, ¬ Down scr (fun l => HasAttr l.attrs q.attrs q.mask) (startLine num arg) (num.toNat + 1) i) ∧ findLua env q scr width num arg 1 = some 0) := by
  have := (lua_eq (width := width) (attr_decides (env := env) ht hat hw) ⟨rfl, rfl⟩ (findLine_plain (fun t h => by rw [ht] at h; cases h)) ha
    (num := num) (arg := arg) ⟨hn.1, by omega⟩ hr).2
  rwa [if_pos hn.2] at this

theorem regex_decides {t : List Nat} {search : List Nat → Option (Nat × Nat)} (ht : q.text = some t) :
    Decides env q (some search) scr (HasRegex env.space search q.attrs q.mask) (fun s _ => s ≠ none) := by
  intro l hl start len hs
  have huniq : ∀ u, Trimmed env.space l.chars u → u = trim env l.chars := fun u hu => trimmed_unique hu (trim_trimmed l.chars)
  cases hf : search (trim env l.chars) with
  | none =>
    have htx : textPart env q (some search) l start len = (false, start, len) := by unfold textPart; simp only [ht, hf]
    rw [htx]
    obtain ⟨p, rfl⟩ := Option.ne_none_iff_exists'.1 hs
    have hno : ¬ HasRegex env.space search q.attrs q.mask l := by
      rintro ⟨u, p, n, h1, h2, _⟩
      rw [huniq u h1, hf] at h2; cases h2
    by_cases hat : q.attrs = []
    · exact ⟨true, by unfold attrPart; rw [if_pos hat], by simp [hno], hs⟩
    · exact ⟨_, by unfold attrPart; rw [if_neg hat], by simp [hno], hs⟩
  | some r =>
    obtain ⟨p, n⟩ := r
    have htx : textPart env q (some search) l start len = (true, some p, n) := by unfold textPart; simp only [ht, hf]
    rw [htx]
    by_cases hat : q.attrs = []
    · refine ⟨true, by unfold attrPart; rw [if_pos hat], ?_, by simp⟩
      simp only [and_self, true_iff]
      exact ⟨_, p, n, trim_trimmed _, hf, .inl hat⟩
    · refine ⟨_, by unfold attrPart; rw [if_neg hat], ?_, by simp⟩
      constructor
      · rintro ⟨_, h⟩
        refine ⟨_, p, n, trim_trimmed _, hf, .inr ?_⟩
        unfold HasAttr
        simpa using h
      · rintro ⟨u, p', n', h1, h2, h3⟩
        rw [huniq u h1, hf] at h2
        injection h2 with h2
        injection h2 with e1 e2
        subst e1; subst e2
        rcases h3 with h3 | h3
        · exact absurd h3 hat
        · unfold HasAttr at h3
          exact ⟨rfl, by simpa using h3⟩

theorem findLine_regex {t : List Nat} {search : List Nat → Option (Nat × Nat)} (ht : q.text = some t) (hne : t ≠ []) (hre : q.useRegex = true)
    (hs : env.regex t q.icase = some search) (line distance : Int) :
    findLine env q scr width line distance = go env q (some search) scr (if distance > 0 then 1 else -1) distance.natAbs line (some 0) width := by
  unfold findLine
  simp only [ht]
  rw [if_pos ⟨hne, hre⟩, hs]

/-- A search with a valid regular expression, with or without attributes and in any case, upwards. -/
theorem C63_prev_regex {t : List Nat} {search : List Nat → Option (Nat × Nat)} (ht : q.text = some t) (hne : t ≠ []) (hre : q.useRegex = true)
    (hs : env.regex t q.icase = some search) (ha : q.attrs.length ≤ 32) (hn : 0 < num ∧ num ≤ scr.length) (hr : -32767 ≤ arg ∧ arg ≤ 32768) :
    (∃ i, Up scr (HasRegex env.space search q.attrs q.mask) (startLine num arg) i ∧ findLua env q scr width num arg (-1) = some (i + 1)) ∨
    ((∀ i, ¬ Up scr (HasRegex env.space search q.attrs q.mask) (startLine num arg) i) ∧ findLua env q scr width num arg (-1) = some 0) :=
  (lua_eq (regex_decides ht) (by simp) (findLine_regex ht hne hre hs) ha hn hr).1

/-- The same downwards. -/
theorem C63_next_regex {t : List Nat} {search : List Nat → Option (Nat × Nat)} (ht : q.text = some t) (hne : t ≠ []) (hre : q.useRegex = true)
    (hs : env.regex t q.icase = some search) (ha : q.attrs.length ≤ 32) (hn : 0 < num ∧ num < scr.length) (hr : -32767 ≤ arg ∧ arg ≤ 32768) :
    (∃ i, Down scr (HasRegex env.space search q.attrs q.mask) (startLine num arg) (num.toNat + 1) i ∧ findLua env q scr width num arg 1 = some (i + 1)) ∨
    ((∀ i, ¬ Down scr (HasRegex env.space search q.attrs q.mask) (startLine num arg) (num.toNat + 1) i) ∧ findLua env q scr width num arg 1 = some 0) := by
  have := (lua_eq (width := width) (regex_decides (env := env) (scr := scr) (search := search) ht) (by simp) (findLine_regex ht hne hre hs) ha
    (num := num) (arg := arg) ⟨hn.1, by omega⟩ hr).2
  rwa [if_pos hn.2] at this

/-! ### Concrete searches -/

def env0 : Env :=
  { space := (· == 32), lower := List.map fun c => if 65 ≤ c ∧ c ≤ 90 then c + 32 else c,
    regex := fun t _ => if t = [91] then none else some fun s => (wcsstr s t).map (·, t.length) }

/-- `ab`, `cd`, `AB`, and an empty line, the second in red. -/
def scr0 : List Line := [⟨[97, 98, 32], [7, 7, 7]⟩, ⟨[99, 100, 32], [7, 4, 7]⟩, ⟨[65, 66, 32], [7, 7, 7]⟩, ⟨[32, 32, 32], [7, 7, 7]⟩]

def ask (t : List Nat) : Query := { text := some t, useRegex := false, icase := false, attrs := [], mask := 255 }

example : findLua env0 (ask [98]) scr0 3 3 3 (-1) = some 1 := by decide +kernel
example : findLua env0 (ask [99]) scr0 3 3 1 1 = some 2 := by decide +kernel
example : findLua env0 (ask [99]) scr0 3 3 3 1 = some 0 := by decide +kernel
example : findLua env0 { ask [] with text := none, attrs := [4] } scr0 3 3 3 (-1) = some 2 := by decide +kernel
example : findLua env0 { ask [99, 100] with useRegex := true, attrs := [4] } scr0 3 3 1 1 = some 2 := by decide +kernel
example : findLua env0 { ask [99] with useRegex := true, attrs := [4] } scr0 3 3 1 1 = some 0 := by decide +kernel
example : (∀ l ∈ scr0, 0 ∉ l.chars) ∧ (∀ l ∈ scr0, l.attrs.length = 3) := by decide

/-! ### What does not hold -/

/-- If the last line is the last line of the screen buffer and nothing is found, then `console.findnextline` says line 1. -/
theorem C63_bottom (ht : ∃ t, q.text = some t ∧ q.useRegex = false ∧ q.icase = false ∧ q.attrs = [] ∧ (∀ l ∈ scr, 0 ∉ l.chars) ∧
      ∀ l ∈ scr, ¬ HasText env.space l t) (hn : 0 < num ∧ num = scr.length) (hr : -32767 ≤ arg ∧ arg ≤ 32768) :
    findLua env q scr width num arg 1 = some 1 := by
  obtain ⟨t, ht, hre, hic, hat, hz, hno⟩ := ht
  have := (lua_eq (width := width) (plain_decides (env := env) ht hre hic hat hz) trivial (findLine_plain (fun _ _ => .inr hre))
    (by rw [hat]; exact Nat.zero_le _) (num := num) (arg := arg) ⟨hn.1, by omega⟩ hr).2
  rcases this with ⟨i, ⟨_, _, ⟨l, h1, h2⟩, _⟩, _⟩ | ⟨_, h⟩
  · exact absurd h2 (hno l (List.mem_of_getElem? h1))
  · rw [h, if_neg (by omega)]

theorem C63_bottom_violated : findLua env0 (ask [120]) scr0 3 4 2 1 = some 1 ∧ ¬ HasText env0.space ⟨[97, 98, 32], [7, 7, 7]⟩ [120] := by
  refine ⟨by decide +kernel, ?_⟩
  rintro ⟨u, hu, h⟩
  have : (120 : Nat) ∈ u := h.subset (by simp)
  obtain ⟨b, e, _⟩ := hu
  have h2 : (120 : Nat) ∈ ([97, 98, 32] : List Nat) := by
    have : (120 : Nat) ∈ u ++ b := List.mem_append_left _ this
    rw [← e] at this; exact this
  revert h2; decide

/-- A line after the last one may be found. -/
theorem C63_beyond : findLua env0 (ask [65]) scr0 3 2 1 1 = some 3 := by decide +kernel

/-- For an expression that is not valid the answer is 0, as if nothing were found, and not the documented -1. -/
theorem C63_invalid_violated {t : List Nat} (ht : q.text = some t) (hne : t ≠ []) (hre : q.useRegex = true) (hs : env.regex t q.icase = none)
    (ha : q.attrs.length ≤ 32) (direction : Int) : findLua env q scr width num arg direction = some 0 := by
  unfold findLua
  have h32 : ¬ q.attrs.length > 32 := by omega
  rw [if_neg h32]
  unfold findLine
  simp only [ht]
  rw [if_pos ⟨hne, hre⟩, hs]
  rfl

example : env0.regex [91] false = none := rfl

/-- Ignoring case, a text in capitals on the screen is not found, whatever the case of the text searched for. -/
theorem C63_icase_violated : findLua env0 { ask [65, 66] with icase := true } (scr0.drop 1) 3 2 2 (-1) = some 0 ∧
    findLua env0 { ask [97, 98] with icase := true } (scr0.drop 1) 3 2 2 (-1) = some 0 ∧ findLua env0 (ask [65, 66]) (scr0.drop 1) 3 2 2 (-1) = some 2 := by
  decide +kernel

/-- A search for a text and attributes subtracts from a null pointer at the first line that does not have the text. -/
theorem C63_both_violated {t : List Nat} {l : Line} (ht : q.text = some t) (hre : q.useRegex = false) (hic : q.icase = false) (hat : q.attrs ≠ [])
    (hz : 0 ∉ l.chars) (hl : scr[startLine num arg]? = some l) (hno : ¬ HasText env.space l t) (hn : 0 < num) (hr : -32767 ≤ arg ∧ arg ≤ 32768)
    (direction : Int) : findLua env q scr width num arg direction = none := by
  unfold findLua
  by_cases h32 : q.attrs.length > 32
  · rw [if_pos h32]
  rw [if_neg h32]
  have hs : max (min (short (arg - 1)) (num - 1)) 0 = (startLine num arg : Int) := by
    rw [short_id (by omega)]; unfold startLine; omega
  have hlt : (startLine num arg : Int) < num := by unfold startLine; omega
  simp only [hs]
  rw [findLine_plain (fun _ _ => .inr hre)]
  have key : ∀ d n, go env q none scr d (n + 1) (startLine num arg : Int) (some 0) width = none := by
    intro d n
    have htx : (textPart env q none l (some 0) width).2.1 = none := by
      have hnd : needle env q t = t := by unfold needle; rw [if_neg (by rw [hic]; simp)]
      have hcs : cstr (trim env l.chars) = trim env l.chars := cstr_id (fun h => hz (trim_sub _ h))
      have hw : wcsstr (trim env l.chars) t = none := by
        cases h : wcsstr (trim env l.chars) t with
        | none => rfl
        | some p => exact absurd ⟨_, trim_trimmed _, (wcsstr_iff _ _).1 ⟨p, h⟩⟩ hno
      unfold textPart
      simp only [ht, hnd, hcs, hw]
    rw [go, if_neg (by omega)]
    simp only [Int.toNat_natCast, hl, htx]
    unfold attrPart
    rw [if_neg hat]
  by_cases hd : direction > 0
  · rw [if_pos hd]
    have e : (num - (startLine num arg : Int) + 1).natAbs = (num - (startLine num arg : Int)).toNat + 1 := by omega
    rw [e, key]; rfl
  · rw [if_neg hd]
    have e : (0 - (startLine num arg : Int) - 1).natAbs = startLine num arg + 1 := by omega
    rw [e, key]; rfl

example : findLua env0 { ask [97] with attrs := [7] } scr0 3 3 2 (-1) = none := by decide +kernel
example : findLua env0 { ask [97] with attrs := [7] } scr0 3 3 1 (-1) = some 1 := by decide +kernel

/-- More than 32 attributes are written beyond their place. -/
theorem C63_attrs_violated (ha : 32 < q.attrs.length) (direction : Int) : findLua env q scr width num arg direction = none := by
  unfold findLua; rw [if_pos ha]

example : 32 < (List.replicate 33 7).length := by decide

end Clink.FindLine
