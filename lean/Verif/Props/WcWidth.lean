import Verif.Proof.WcWidth
import Verif.Props.Wrap

/-!
C61: the width of a character is what the tables say, and the setting for ambiguous characters changes only these.

`mkWidth cfg c` is `mk_wcwidth`, `mkWidthUcs2 cfg c` is `mk_wcwidth_ucs2`, and `wcwidth cfg h m c` is the function that is
called after `reset_wcwidths`, for the setting `m`.  `none` means that a table is read outside of its bounds.
`tables cfg h m` are the tables as the functions for text use them (C17, C18, C60).
-/

namespace Clink.WcWidth
open Spec
open Ellipsify.Spec (Plain)
open Doskey.Spec (flat)

/-- Binary search in a sorted table finds out whether the character is in the table, and reads nothing outside of it. -/
theorem C61_search {t : Table} (hne : t ≠ []) (ht : Sorted t) (c : Nat) : bisearch t c = some (decide (In t c)) := bisearch_eq hne ht c

/-- The tables in the code are sorted, and their intervals do not meet. -/
theorem C61_tables : ∀ t ∈ [emojis, unqualified, halfwidth, combining, ucs2Emoji, ambiguous], t ≠ [] ∧ Sorted t := by
  simp only [List.mem_cons, List.not_mem_nil, or_false]
  rintro t (rfl | rfl | rfl | rfl | rfl | rfl)
  · exact ⟨by decide, sorted_emojis⟩
  · exact ⟨by decide, sorted_unqualified⟩
  · exact ⟨by decide, sorted_halfwidth⟩
  · exact ⟨by decide, sorted_combining⟩
  · exact ⟨by decide, sorted_ucs2Emoji⟩
  · exact ⟨by decide, sorted_ambiguous⟩

theorem em_comb {c : Nat} : In emojis c → In combining c → False := apart_in (by decide +kernel)
theorem un_comb {c : Nat} : In unqualified c → In combining c → False := apart_in (by decide +kernel)
theorem un_em {c : Nat} : In unqualified c → In emojis c → False := apart_in (by decide +kernel)
theorem am_comb {c : Nat} : In ambiguous c → In combining c → False := apart_in (by decide +kernel)
theorem am_wide {c : Nat} : In ambiguous c → In wide c → False := apart_in (by decide +kernel)
theorem am_wideLow {c : Nat} : In ambiguous c → In wideLow c → False := apart_in (by decide +kernel)

/-- The width is -1 for control characters, 0 for NUL and combining characters, 2 for emoji (if they have colour) and for wide
characters, and otherwise 1. -/
theorem C61_width (cfg : Cfg) (hm : cfg.mark = 0) (c : Nat) :
    ∃ w, mkWidth cfg c = some w ∧ (w = -1 ∨ w = 0 ∨ w = 1 ∨ w = 2) ∧ (w = -1 ↔ Control c) ∧ (w = 0 ↔ c = 0 ∨ In combining c) ∧
      (w = 2 ↔ (cfg.color ∧ In emojis c) ∨ (In wide c ∧ ¬ In combining c ∧ ¬ (cfg.color ∧ In unqualified c))) := by
  refine ⟨_, mkWidth_eq cfg c, ?_⟩
  have h1 := @em_comb c
  have h2 := @un_comb c
  have h3 := @un_em c
  have h4 := @emojis_ge c
  have h5 := @combining_ge c
  have h6 := @wide_ge c
  rw [hm]
  by_cases h0 : c = 0
  · subst h0
    have a : ¬ In emojis 0 := fun h => by have := h4 h; omega
    have b : ¬ In wide 0 := fun h => by have := h6 h; omega
    simp [a, b, Control]
  rw [if_neg h0]
  by_cases hc : Control c
  · have hlt : c < 0xa0 := by unfold Control at hc; omega
    have a : ¬ In emojis c := fun h => by have := h4 h; omega
    have b : ¬ In wide c := fun h => by have := h6 h; omega
    have d : ¬ In combining c := fun h => by have := h5 h; omega
    simp [hc, a, b, d, h0]
  rw [if_neg hc]
  by_cases hu : cfg.color = true ∧ In unqualified c
  · have a : ¬ In emojis c := h3 hu.2
    have b : ¬ In combining c := h2 hu.2
    simp [hu, a, b, h0, hc]
  rw [if_neg hu]
  by_cases he : cfg.color = true ∧ In emojis c
  · have b : ¬ In combining c := h1 he.2
    simp [he, b, h0, hc]
  rw [if_neg he]
  by_cases hb : In combining c
  · simp [hb, hc, he]
  rw [if_neg hb]
  by_cases hw : In wide c <;> simp [hw, hb, hc, h0, hu, he]

/-- Combining characters are as wide as the caller wants. -/
theorem C61_mark (cfg : Cfg) {c : Nat} (h : In combining c) : mkWidth cfg c = some cfg.mark ∧ mkWidthUcs2 cfg c = some cfg.mark := by
  have h5 := combining_ge h
  have h0 : c ≠ 0 := by omega
  have hc : ¬ Control c := by unfold Control; omega
  have a : ¬ (cfg.color = true ∧ In unqualified c) := fun hx => un_comb hx.2 h
  have b : ¬ (cfg.color = true ∧ In emojis c) := fun hx => em_comb hx.2 h
  constructor
  · rw [mkWidth_eq, if_neg h0, if_neg hc, if_neg a, if_neg b, if_pos h]
  · rw [mkWidthUcs2_eq, if_neg h0, if_neg hc, if_pos h]

/-- The medial vowels and final consonants of Hangul have no width. -/
theorem C61_jamo (cfg : Cfg) (hm : cfg.mark = 0) {c : Nat} (h : 0x1160 ≤ c ∧ c ≤ 0x11ff) : mkWidth cfg c = some 0 ∧ mkWidthUcs2 cfg c = some 0 := by
  rw [← hm]
  exact C61_mark cfg ⟨(0x1160, 0x11ff), by decide +kernel, h⟩

/-- The same where only UCS-2 is supported: characters from U+10000 are two, and Windows 10 and 11 decide about the others. -/
theorem C61_ucs2 (cfg : Cfg) (hm : cfg.mark = 0) (c : Nat) :
    ∃ w, mkWidthUcs2 cfg c = some w ∧ (w = -1 ∨ w = 0 ∨ w = 1 ∨ w = 2) ∧ (w = -1 ↔ Control c) ∧ (w = 0 ↔ c = 0 ∨ In combining c) ∧
      (w = 2 ↔ ¬ In combining c ∧ (0x10000 ≤ c ∨ (cfg.win10 ∧ In wideLow c) ∨ (cfg.win10 ∧ cfg.win11 ∧ In ucs2Emoji c))) := by
  refine ⟨_, mkWidthUcs2_eq cfg c, ?_⟩
  have h4 := @ucs2Emoji_ge c
  have h5 := @combining_ge c
  have h6 := @wideLow_ge c
  rw [hm]
  have hiff : (c ≥ 0x10000 ∨ cfg.win10 = true ∧ (In wideLow c ∨ cfg.win11 = true ∧ In ucs2Emoji c)) ↔
      (0x10000 ≤ c ∨ (cfg.win10 = true ∧ In wideLow c) ∨ (cfg.win10 = true ∧ cfg.win11 = true ∧ In ucs2Emoji c)) := by
    rw [and_or_left]
  simp only [hiff]
  have hlow : c < 0xa0 → ¬ (0x10000 ≤ c ∨ (cfg.win10 = true ∧ In wideLow c) ∨ (cfg.win10 = true ∧ cfg.win11 = true ∧ In ucs2Emoji c)) := by
    rintro h (h1 | ⟨_, h1⟩ | ⟨_, _, h1⟩)
    · omega
    · have := h6 h1; omega
    · have := h4 h1; omega
  by_cases h0 : c = 0
  · have := hlow (by omega)
    rw [if_pos h0]
    have hn : ¬ Control c := by unfold Control; omega
    refine ⟨by simp, ?_, ?_, ?_⟩
    · simp [hn]
    · simp [h0]
    · simp only [this, and_false, iff_false]; decide
  rw [if_neg h0]
  by_cases hc : Control c
  · have hlt : c < 0xa0 := by unfold Control at hc; omega
    have := hlow hlt
    have d : ¬ In combining c := fun h => by have := h5 h; omega
    rw [if_pos hc]
    simp only [this, and_false, hc, d, h0, or_false]
    simp
  rw [if_neg hc]
  by_cases hb : In combining c
  · simp [hb, hc]
  rw [if_neg hb]
  split
  · rename_i h; simp only [h, hb, hc, h0]; simp
  · rename_i h; simp only [h, hb, hc, h0]; simp

/-- Characters that are not ambiguous have the same width with every setting. -/
theorem C61_others (cfg : Cfg) (h : Host) (m : Mode) {c : Nat} (hc : ¬ In ambiguous c) :
    wcwidth cfg h m c = if h.onlyUcs2 then mkWidthUcs2 cfg c else mkWidth cfg c := by
  unfold wcwidth
  simp only [mkWidthCjk_eq, hc, if_false]
  cases h.onlyUcs2 <;> simp

theorem isCjk_iff (cp : Nat) : isCjk cp = true ↔ EastAsia cp := by simp [isCjk, EastAsia]

/-- The width of ambiguous characters is as the setting says. -/
theorem C61_ambiguous (cfg : Cfg) (h : Host) {c : Nat} (hc : In ambiguous c) :
    wcwidth cfg h .one c = some 1 ∧ wcwidth cfg h .two c = some 2 ∧ wcwidth cfg h .font c = some (measured (h.font c)) ∧
      (EastAsia h.codePage → wcwidth cfg h .auto c = some (if h.console then measured (h.font c) else 1)) := by
  refine ⟨?_, ?_, ?_, fun hp => ?_⟩ <;> simp only [wcwidth, mkWidthCjk_eq, hc, if_true]
  · simp [resolve]
  · simp [resolve]
  · simp [resolve, measured]
  · simp [(isCjk_iff _).2 hp, resolve, measured]

/-- With `auto` and another code page, they have the width 1 unless they are emoji with colour, or only UCS-2 is supported. -/
theorem C61_auto (cfg : Cfg) (h : Host) {c : Nat} (hc : In ambiguous c) (hp : ¬ EastAsia h.codePage) :
    (h.onlyUcs2 = false → wcwidth cfg h .auto c = some (if cfg.color ∧ In emojis c then 2 else 1)) ∧
    (h.onlyUcs2 = true → wcwidth cfg h .auto c =
      some (if 0x10000 ≤ c ∨ (cfg.win10 ∧ cfg.win11 ∧ In ucs2Emoji c) then 2 else 1)) := by
  have hp' : isCjk h.codePage = false := by
    cases hx : isCjk h.codePage
    · rfl
    · exact absurd ((isCjk_iff _).1 hx) hp
  have h5 := ambiguous_ge hc
  have h0 : c ≠ 0 := by omega
  have hcc : ¬ Control c := by unfold Control; omega
  have a : ¬ In combining c := am_comb hc
  have b : ¬ In wide c := am_wide hc
  have d : ¬ In wideLow c := am_wideLow hc
  have hwc : wcwidth cfg h .auto c = if h.onlyUcs2 then mkWidthUcs2 cfg c else mkWidth cfg c := by
    simp only [wcwidth, if_true, hp']
    cases h.onlyUcs2 <;> simp
  constructor
  · intro hu
    rw [hwc, hu, if_neg (by simp), mkWidth_eq, if_neg h0, if_neg hcc, if_neg a, if_neg b]
    by_cases he : cfg.color = true ∧ In unqualified c
    · have : ¬ (cfg.color = true ∧ In emojis c) := fun hx => un_em he.2 hx.2
      rw [if_pos he, if_neg this]
    · rw [if_neg he]
  · intro hu
    rw [hwc, hu, if_pos rfl, mkWidthUcs2_eq, if_neg h0, if_neg hcc, if_neg a]
    simp only [d, false_or, ge_iff_le]

/-- The setting says that `auto` uses 1 for ambiguous characters if the code page is not one of East Asia.  With emoji in colour
U+2614 has the width 2, and only the setting `one` gives 1. -/
theorem C61_auto_violated : ∃ (cfg : Cfg) (h : Host) (c : Nat), In ambiguous c ∧ ¬ EastAsia h.codePage ∧ h.codePage = 65001 ∧
    wcwidth cfg h .auto c = some 2 ∧ wcwidth cfg h .one c = some 1 :=
  ⟨⟨true, 0, true, true⟩, ⟨false, fun _ => -1, 65001, false⟩, 0x2614, by decide +kernel, by decide, rfl, by decide +kernel, by decide +kernel⟩

/-- The comment says that characters of category Mn have the width 0, that East Asian Wide characters have 2 and that all others
have 1.  The tables are older than some characters. -/
theorem C61_unicode_violated (cfg : Cfg) (hm : cfg.mark = 0) :
    (∃ c ∈ unicodeMn, mkWidth cfg c = some 1) ∧ (∃ c ∈ unicodeWide, mkWidth cfg c = some 1) ∧ (∃ c ∈ unicodeSo, mkWidth cfg c = some 0) := by
  refine ⟨⟨0x065f, by decide, ?_⟩, ⟨0x17000, by decide, ?_⟩, ⟨0x06de, by decide, ?_⟩⟩ <;> rw [mkWidth_eq, hm]
  · have a : ¬ In unqualified 0x065f := by decide +kernel
    have b : ¬ In emojis 0x065f := by decide +kernel
    have d : ¬ In combining 0x065f := by decide +kernel
    have e : ¬ In wide 0x065f := by decide +kernel
    have f : ¬ Control 0x065f := by decide
    simp [a, b, d, e, f]
  · have a : ¬ In unqualified 0x17000 := by decide +kernel
    have b : ¬ In emojis 0x17000 := by decide +kernel
    have d : ¬ In combining 0x17000 := by decide +kernel
    have e : ¬ In wide 0x17000 := by decide +kernel
    have f : ¬ Control 0x17000 := by decide
    simp [a, b, d, e, f]
  · have a : ¬ In unqualified 0x06de := by decide +kernel
    have b : ¬ In emojis 0x06de := by decide +kernel
    have d : In combining 0x06de := by decide +kernel
    have f : ¬ Control 0x06de := by decide
    simp [a, b, d, f]

/-- Printable ASCII has the width 1 in every configuration, and the functions for text see every such character as one of its own. -/
theorem C61_ascii (cfg : Cfg) (h : Host) (m : Mode) {c : Nat} (hc : 0x20 ≤ c ∧ c ≤ 0x7e) :
    wcwidth cfg h m c = some 1 ∧ Plain (tables cfg h m) c ∧ (tables cfg h m).wc c = 1 ∧ (tables cfg h m).variant 0 = false := by
  have ha : ¬ In ambiguous c := fun hx => by have := ambiguous_ge hx; omega
  have hw : wcwidth cfg h m c = some 1 := by
    rw [C61_others cfg h m ha]
    have h0 : c ≠ 0 := by omega
    have h1 : ¬ c < 32 := by omega
    cases h.onlyUcs2 <;> simp [mkWidth, mkWidthUcs2, h0, h1, hc.2]
  have he : ¬ In emojis c := fun hx => by have := emojis_ge hx; omega
  have hu : ¬ In unqualified c := fun hx => by have := unqualified_ge hx; omega
  have hwc : (tables cfg h m).wc c = 1 := by simp [tables, hw]
  refine ⟨hw, ⟨⟨by omega, by omega, by omega⟩, ⟨hc.1, by omega⟩, by rw [hwc]; decide, ?_, ?_, ?_, ?_, by omega, by omega⟩, hwc, by simp [tables, isVariant]⟩
  · unfold Ellipsify.Spec.Flag; omega
  · simp [tables, find_emojis, he]
  · simp [tables, find_unqualified, hu]
  · simp [tables, isVariant]; omega

/-- Wrapping ASCII text (C60) in every configuration: no line has more characters than the width, no line begins or ends with a
space, and nothing but spaces is lost. -/
theorem C61_wrap (cfg : Cfg) (h : Host) (m : Mode) {wrap : Nat} {cs : List Nat} (hc : ∀ c ∈ cs, 0x20 ≤ c ∧ c ≤ 0x7e)
    (hl : (flat cs).length ≤ 65471) (hx : ∃ c ∈ cs, c ≠ 32) :
    ∃ ls : List (List Nat), ∃ n, (∀ fuel ≥ n, Wrap.wrapText (tables cfg h m) fuel (flat cs) wrap = some (ls.map flat)) ∧
      (∀ l ∈ ls, l ≠ [] ∧ l.head? ≠ some 32 ∧ l.getLast? ≠ some 32 ∧ (wrap ≠ 0 → l.length ≤ wrap)) ∧
      ls.flatten.filter (· ≠ 32) = cs.filter (· ≠ 32) := by
  have hs := C61_ascii cfg h m (c := 32) (by omega)
  obtain ⟨ls, n, h1, h2, h3⟩ := Wrap.C60_lines (env := tables cfg h m) (wrap := wrap) hs.2.2.2 (fun c hm => (C61_ascii cfg h m (hc c hm)).2.1) hs.2.2.1
    (fun c hm hw => by rw [(C61_ascii cfg h m (hc c hm)).2.2.1]; omega) hl hx
  refine ⟨ls, n, h1, fun l hlm => ?_, h3⟩
  obtain ⟨a, b, d, e⟩ := h2 l hlm
  refine ⟨a, b, d, fun hw => ?_⟩
  have e := e hw
  have hin : ∀ c ∈ l, 0x20 ≤ c ∧ c ≤ 0x7e := by
    intro c hcl
    by_cases h32 : c = 32
    · omega
    · have : c ∈ ls.flatten.filter (· ≠ 32) := List.mem_filter.2 ⟨List.mem_flatten.2 ⟨l, hlm, hcl⟩, by simpa using h32⟩
      rw [h3] at this
      exact hc c (List.mem_filter.1 this).1
  have hsum : ∀ l : List Nat, (∀ c ∈ l, 0x20 ≤ c ∧ c ≤ 0x7e) → (l.map (tables cfg h m).wc).sum = l.length := by
    intro l
    induction l with
    | nil => simp
    | cons c l ih =>
      intro hh
      have h4 := (C61_ascii cfg h m (hh c (by simp))).2.2.1
      have h5 := ih fun x hx => hh x (by simp [hx])
      simp only [List.map_cons, List.sum_cons, List.length_cons, h4, h5]
      omega
  rw [hsum l hin] at e
  omega

/-! Examples. -/

def terminal : Cfg := ⟨true, 0, true, true⟩
def conhost : Host := ⟨true, fun c => if c = 0xa1 then 2 else -1, 932, false⟩

-- C61_search, C61_tables
example : bisearch [(3, 5), (9, 9), (12, 20)] 9 = some true ∧ bisearch [(3, 5), (9, 9), (12, 20)] 11 = some false ∧ bisearch [] 9 = none ∧
    Sorted [(3, 5), (9, 9), (12, 20)] := by decide +kernel
-- not sorted: the search fails
example : bisearch [(1, 1), (12, 20), (3, 5), (30, 30)] 4 = some false := by decide +kernel
-- C61_width: "a", DEL, soft hyphen, an accent, a Chinese character, an emoji, and "TM"
example : [0x61, 0x7f, 0xad, 0x301, 0x4e00, 0x1f600, 0x2122].map (mkWidth terminal) = [some 1, some (-1), some 1, some 0, some 2, some 2, some 1] := by
  decide +kernel
example : In emojis 0x1f600 ∧ In wide 0x4e00 ∧ In combining 0x301 ∧ In unqualified 0x2122 ∧ In unqualified 0x3030 ∧ In wide 0x3030 ∧
    mkWidth terminal 0x3030 = some 1 ∧ mkWidth { terminal with color := false } 0x3030 = some 2 ∧
    mkWidth { terminal with color := false } 0x1f600 = some 1 := by decide +kernel
-- C61_mark, C61_jamo
example : mkWidth { terminal with mark := 1 } 0x301 = some 1 ∧ mkWidth terminal 0x1160 = some 0 := by decide +kernel
-- C61_ucs2: Windows 8, 10 and 11
example : [(⟨false, 0, false, false⟩ : Cfg), ⟨false, 0, true, false⟩, ⟨false, 0, true, true⟩].map (fun cfg => [0x4e00, 0x231a, 0x1f600, 0x61].map (mkWidthUcs2 cfg)) =
    [[some 1, some 1, some 2, some 1], [some 2, some 1, some 2, some 1], [some 2, some 2, some 2, some 1]] := by decide +kernel
-- C61_others, C61_ambiguous, C61_auto
example : ¬ In ambiguous 0x4e00 ∧ In ambiguous 0xa1 ∧ EastAsia conhost.codePage ∧ wcwidth terminal conhost .auto 0xa1 = some 2 ∧
    wcwidth terminal conhost .one 0xa1 = some 1 ∧ wcwidth terminal { conhost with console := false } .auto 0xa1 = some 1 ∧
    wcwidth terminal { conhost with codePage := 65001 } .auto 0xa1 = some 1 ∧ wcwidth terminal conhost .font 0xa7 = some 2 ∧
    wcwidth terminal conhost .one 0x4e00 = some 2 := by decide +kernel
example : In ambiguous 0xe000 ∧ In ambiguous 0xf0000 ∧ wcwidth terminal { conhost with codePage := 437, onlyUcs2 := true } .auto 0xf0000 = some 2 := by
  decide +kernel
-- C61_ascii, C61_wrap: "foo bar"
example : Wrap.wrapText (tables terminal conhost .auto) 100 [102, 111, 111, 32, 98, 97, 114] 5 = some [[102, 111, 111], [98, 97, 114]] := by decide +kernel

end Clink.WcWidth
