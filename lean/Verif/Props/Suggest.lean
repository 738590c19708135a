import Verif.Proof.SuggestAccept
import Verif.Model.Color
/- C52: accepting a suggestion gives the line that is shown. -/
namespace Clink.Suggest
open Clink StrCompare Spec
open Clink.Utf (specUtf8 IsText)

/-! ### Examples used below -/

def asciiLower (c : Nat) : Nat := if 65 ≤ c ∧ c ≤ 90 then c + 32 else c
theorem asciiLower_ok : LowerOk asciiLower := by
  constructor <;> intro c <;> unfold asciiLower <;> split <;> omega

def isAlnum (c : Nat) : Bool := (48 ≤ c && c ≤ 57) || (65 ≤ c && c ≤ 90) || (97 ≤ c && c ≤ 122)
/-- To the end of the next run of letters and digits. -/
def demoForward (t : List Nat) (c : Nat) : Nat :=
  let l := (t.drop c).dropWhile (fun c => !isAlnum c)
  t.length - (l.dropWhile isAlnum).length

/-- The defaults, with an ASCII `CharLowerW`. -/
def demo : Cfg where
  enable := true
  inline := true
  originalCase := true
  ignoreCase := true
  fuzzy := true
  listActive := false
  listEnabled := false
  lower := asciiLower
  forwardWord := demoForward

def fresh : Mgr := ⟨[], [], [], [], 0, false, false⟩
/-- The state after a suggestion for a line (bytes; offsets in bytes). -/
def after (cfg : Cfg) (line : List Nat) (endword : Nat) (text : List Nat) (off : Nat) : Mgr :=
  set cfg fresh line endword [⟨text, off, []⟩]
def atEnd (line : List Nat) : Buf := ⟨line, line.length⟩

theorem plain_of {l : List Nat} (h : ∀ i < l.length, l[i]? = some 47 → l[i + 1]? ≠ some 47 ∧ l[i + 1]? ≠ some 92) : Plain l := by
  intro i hi
  exact h i (List.getElem?_eq_some_iff.1 hi).1 hi

/-! ### The theorems -/

/-- C52 (set): a suggestion that continues the line becomes the one shown; any other is
dropped, for text without runs of separators. -/
theorem C52_set (cfg : Cfg) (hok : LowerOk cfg.lower) (he : cfg.enable = true) (hin : cfg.inline = true)
    (hla : cfg.listActive = false) (hle : cfg.listEnabled = false) (m : Mgr) (t s src : List Nat) (k e : Nat) (ht : Txt t) (hs : Txt s)
    (pt : Plain (t.drop k)) (ps : Plain s) (hk : k ≤ t.length) (hee : e ≤ t.length)
    (hnew : ¬ (m.items = [⟨u8 s, (u8 (t.take k)).length, src⟩] ∧ m.endword = (u8 (t.take e)).length ∧ m.line = u8 t)) :
    (Fits cfg t s k → t.length - k < s.length →
      Ready cfg (set cfg m (u8 t) (u8 (t.take e)).length [⟨u8 s, (u8 (t.take k)).length, src⟩]) ⟨u8 t, (u8 t).length⟩ t s k e) ∧
    (¬ Fits cfg t s k →
      (set cfg m (u8 t) (u8 (t.take e)).length [⟨u8 s, (u8 (t.take k)).length, src⟩]).items = []) := by
  refine ⟨fun hf hl => (set_fits hok he hin hla hle m ht hs ps hk hee hnew hf).2 hl, fun hf => ?_⟩
  rw [set_not hok hle m ht hs pt ps hk hnew hf]
  rfl

/-- C52 (visible): a suggestion is shown exactly when it continues the line, and what is shown
is the line followed by the rest of the suggestion. -/
theorem C52_visible (cfg : Cfg) (hok : LowerOk cfg.lower) (hin : cfg.inline = true) (hla : cfg.listActive = false)
    (m : Mgr) (t s src : List Nat) (k cur : Nat) (more : List Item) (ht : Txt t) (hs : Txt s)
    (pt : Plain (t.drop k)) (ps : Plain s) (hk : k ≤ t.length)
    (hi : m.items = ⟨u8 s, (u8 (t.take k)).length, src⟩ :: more) :
    (Fits cfg t s k → getVisible cfg m ⟨u8 t, cur⟩ = some (u8 (shown t s k))) ∧
    (¬ Fits cfg t s k → getVisible cfg m ⟨u8 t, cur⟩ = none) := by
  have hlen := len_le t k
  have hgt : ¬ (u8 (t.take k)).length > (u8 t).length := by omega
  constructor
  · intro hf
    have hc := cmp_fits hok (ht.drop k) hs ps hf.2
    have hmo : Utf.more [] = false := rfl
    unfold getVisible
    rw [hi]
    dsimp only
    rw [hla, drop_u8, if_neg hgt, hc]
    simp [hmo, hin, shown, u8_append]
  · intro hf
    have hc := cmp_not hok (ht.drop k) hs pt ps (fun h => hf ⟨hk, h⟩)
    unfold getVisible
    rw [hi]
    dsimp only
    rw [hla, drop_u8, if_neg hgt, if_pos hc]
    simp

/-- C52 (whole): accepting the suggestion gives the line shown; with the original
capitalisation, the characters of the suggestion replace those of the line from the last word on
(or from the start, if the suggestion is for the whole line), and the result differs from what
is shown only in case and accents.  Nothing more is suggested. -/
theorem C52_end (cfg : Cfg) (hok : LowerOk cfg.lower) (m : Mgr) (b : Buf) (t s : List Nat) (k e : Nat)
    (R : Ready cfg m b t s k e) :
    ∃ m' b', insert cfg .toEnd m b = some (true, m', b') ∧ Quiet m' b' ∧ b'.cursor = b'.text.length ∧
      b'.text = u8 (accepted cfg t s k (if k = 0 then 0 else max e k)) ∧
      (accepted cfg t s k (if k = 0 then 0 else max e k)).map (cls cfg) = (shown t s k).map (cls cfg) ∧
      (cfg.originalCase = false → getVisible cfg m b = some b'.text) := by
  obtain ⟨m', b', h1, h2, h3, h4⟩ := insert_end hok R
  have hk := R.fits.1
  have he := R.endword.1
  refine ⟨m', b', h1, h2, h3, h4, accepted_shown R.fits ?_ ?_, ?_⟩
  · split <;> omega
  · split <;> omega
  · intro ho
    obtain ⟨src, hi⟩ := R.items
    have := (C52_visible cfg hok R.on.2.1 R.on.2.2 m t s src k (u8 t).length [] R.txt.1 R.txt.2
      (R.plain.of_prefix hok R.fits.2) R.plain hk hi).1 R.fits
    rw [← R.buf] at this
    rw [this, h4, accepted, ho]
    rfl

/-- C52 (word): accepting a full word gives the start of what accepting everything would give,
up to the end of the next word; the rest stays suggested. -/
theorem C52_word (cfg : Cfg) (hok : LowerOk cfg.lower) (m : Mgr) (b : Buf) (t s : List Nat) (k e : Nat)
    (R : Ready cfg m b t s k e) (E : Even cfg t s k e) :
    ∃ n m' b', NextWord (inQuotes t e) (s.drop (t.length - k)) n ∧
      insert cfg .nextFullWord m b = some (true, m', b') ∧ b'.cursor = b'.text.length ∧
      b'.text = u8 ((accepted cfg t s k (max e k)).take (t.length + n)) ∧
      (t.length + n < k + s.length → Ready cfg m' b' ((accepted cfg t s k (max e k)).take (t.length + n)) s k e) ∧
      (t.length + n = k + s.length → Quiet m' b') := by
  obtain ⟨m', b', h1, h2, S⟩ := insert_full hok R E
  refine ⟨_, m', b', h2, h1, ?_, ?_, fun h => (S.part h).1, fun h => (S.whole h).1⟩
  · rw [S.buf]
  · rw [S.buf]

/-- C52 (next word): the same for a word as `rl_forward_word` sees it, wherever it stops. -/
theorem C52_next (cfg : Cfg) (hok : LowerOk cfg.lower) (m : Mgr) (b : Buf) (t s : List Nat) (k e p : Nat)
    (R : Ready cfg m b t s k e) (E : Even cfg t s k e) (hp : t.length ≤ p) (hp' : p ≤ k + s.length)
    (hfw : cfg.forwardWord (u8 (accepted cfg t s k (max e k))) (u8 ((accepted cfg t s k (max e k)).take t.length)).length =
      (u8 ((accepted cfg t s k (max e k)).take p)).length) :
    ∃ m' b', insert cfg .nextWord m b = some (true, m', b') ∧ b'.cursor = b'.text.length ∧
      b'.text = u8 ((accepted cfg t s k (max e k)).take p) ∧
      (p < k + s.length → Ready cfg m' b' ((accepted cfg t s k (max e k)).take p) s k e) ∧
      (p = k + s.length → Quiet m' b') := by
  obtain ⟨m', b', h1, S⟩ := insert_next hok R E hp hp' hfw
  refine ⟨m', b', h1, ?_, ?_, fun h => (S.part h).1, fun h => (S.whole h).1⟩
  · rw [S.buf]
  · rw [S.buf]

/-- C52 (words): accepting words again and again gives longer and longer starts of the same
line, and all of it when there are enough. -/
theorem C52_words (cfg : Cfg) (hok : LowerOk cfg.lower) (count : Nat) (m : Mgr) (b : Buf) (t s : List Nat) (k e : Nat)
    (R : Ready cfg m b t s k e) (E : Even cfg t s k e) (hc : 0 < count) :
    ∃ left m' b' p, forward cfg .nextFullWord count m b = some (left, m', b') ∧
      t.length + (count - left) ≤ p ∧ b'.text = u8 ((accepted cfg t s k (max e k)).take p) ∧
      (0 < left ∨ k + s.length ≤ t.length + count →
        b'.text = u8 (accepted cfg t s k (max e k)) ∧ Quiet m' b') := by
  obtain ⟨left, m', b', p, h1, h2, h3, h4, h5, h6, h7, h8⟩ := forward_full hok count R E
  rw [if_neg (by omega)] at h6
  refine ⟨left, m', b', p, h1, h3, h6, fun h => ?_⟩
  have hp : p = k + s.length := by
    rcases h with h | h
    · exact h7 h
    · by_cases hl : 0 < left
      · exact h7 hl
      · omega
  refine ⟨?_, h8 hp⟩
  rw [h6, List.take_of_length_le]
  have := R.endword.1
  have := R.fits.1
  rw [accepted_length R.fits (by omega) (by omega)]
  omega

/-- C52 (asking): after suggestions were set for a line, or all of one was accepted, new ones
are asked for exactly when the line is another one (and, after accepting, not erased). -/
theorem C52_ask (cfg : Cfg) (a : Ask) (m : Mgr) (b : Buf) :
    (∀ line e sg, Asks a m b → ((canSuggest a (set cfg m line e sg) b).1 = true ↔
      line ≠ b.text ∧ ¬ ((set cfg m line e sg).suppress = true ∧ a.erased = true))) ∧
    (∀ b0, Asks a m b → Quiet m b0 → ((canSuggest a m b).1 = true ↔ b0.text ≠ b.text ∧ a.erased = false)) := by
  constructor
  · intro line e sg h
    have := canSuggest_asks (m := set cfg m line e sg) (a := a) (b := b) ⟨by rw [set_paused]; exact h.1, h.2⟩
    rw [set_line] at this
    exact this
  · intro b0 h hq
    rw [canSuggest_asks h, hq.2.1, hq.2.2]
    simp

/-- C52 (not asked): nothing is asked for while suggestions are paused, while something else is
read, while text is selected, or with the cursor elsewhere than at the end of the line. -/
theorem C52_not_asked (a : Ask) (m : Mgr) (b : Buf) (h : ¬ Asks a m b) : (canSuggest a m b).1 = false := by
  unfold canSuggest
  by_cases h1 : m.paused = true
  · rw [if_pos h1]
  · by_cases h2 : a.reading = true
    · rw [if_neg h1, if_pos h2]
    · by_cases h3 : b.cursor = b.text.length
      · by_cases h4 : a.selection = true
        · rw [if_neg h1, if_neg h2, if_neg (fun h => h h3), if_pos h4]
        · exact absurd ⟨by simpa using h1, by simpa using h2, by simpa using h4, h3⟩ h
      · rw [if_neg h1, if_neg h2, if_pos h3]

/-- C52 (refused): accepting does nothing when suggestions are off, when they are not shown in
the line, while the list is open, when there is not exactly one, when nothing of it is left, or
when the cursor is not at the end of the line. -/
theorem C52_refused (cfg : Cfg) (act : Action) (m : Mgr) (b : Buf)
    (h : cfg.enable = false ∨ cfg.inline = false ∨ cfg.listActive = true ∨ m.items.length ≠ 1 ∨
      m.iter = [] ∨ b.cursor ≠ b.text.length) :
    insert cfg act m b = some (false, m, b) := by
  unfold insert
  by_cases h1 : (!cfg.enable || !cfg.inline) = true
  · rw [if_pos h1]
  · rw [if_neg h1]
    split
    · rename_i it hi
      by_cases h2 : cfg.listActive = true
      · rw [if_pos h2]
      · rw [if_neg h2]
        refine if_pos ?_
        rcases h with h | h | h | h | h | h
        · simp [h] at h1
        · simp [h] at h1
        · exact absurd h h2
        · rw [hi] at h; exact absurd rfl h
        · rw [h]; rfl
        · simp [h]
    · rfl

/-- C52 (not in the line): when suggestions are not to be shown in the line, a suggestion that
fits leaves the line as it is. -/
theorem C52_not_inline (cfg : Cfg) (hok : LowerOk cfg.lower) (hin : cfg.inline = false) (hla : cfg.listActive = false)
    (m : Mgr) (t s src : List Nat) (k cur : Nat) (more : List Item) (ht : Txt t) (hs : Txt s)
    (ps : Plain s) (hf : Fits cfg t s k)
    (hi : m.items = ⟨u8 s, (u8 (t.take k)).length, src⟩ :: more) :
    getVisible cfg m ⟨u8 t, cur⟩ = some (u8 t) := by
  have hlen := len_le t k
  have hgt : ¬ (u8 (t.take k)).length > (u8 t).length := by omega
  have hc := cmp_fits hok (ht.drop k) hs ps hf.2
  have hmo : Utf.more [] = false := rfl
  unfold getVisible
  rw [hi]
  dsimp only
  rw [hla, drop_u8, if_neg hgt, hc]
  simp [hmo, hin]

/-- C52 (removing from the history): the suggestions from the history line `h` are removed,
those from later lines follow the lines. -/
theorem C52_remove (h : Nat) (l : List Int) (hl : ∀ i ∈ l, 0 ≤ i ∧ i < 2 ^ 31) :
    removeIndex h l = (l.filter (fun i : Int => decide (i ≠ (h : Int)))).map (fun i : Int => if (h : Int) < i then i - 1 else i) := by
  unfold removeIndex
  have hmod : ∀ i ∈ l, i % 2 ^ 32 = i := fun i hi => by
    have := hl i hi
    exact Int.emod_eq_of_lt this.1 (by omega)
  have h1 : l.filter (fun i : Int => i % 2 ^ 32 != (h : Int)) = l.filter (fun i : Int => decide (i ≠ (h : Int))) := by
    apply List.filter_congr
    intro i hi
    rw [hmod i hi]
    by_cases e : i = (h : Int) <;> simp [e]
  rw [h1]
  apply List.map_congr_left
  intro i hi
  rw [hmod i (List.mem_filter.1 hi).1]

/-! ### Examples for the hypotheses -/

def exT : List Nat := Color.bs "Git Ch"
def exS : List Nat := Color.bs "git checkout \"my branch\" now"

theorem exPlain : Plain exS := plain_of (by decide)
theorem exTxt : Txt exT ∧ Txt exS := by unfold Txt; decide

def exM : Mgr := set demo fresh (u8 exT) (u8 (exT.take 4)).length [⟨u8 exS, (u8 (exT.take 0)).length, []⟩]

theorem exReady : Ready demo exM ⟨u8 exT, (u8 exT).length⟩ exT exS 0 4 :=
  (C52_set demo asciiLower_ok rfl rfl rfl rfl fresh exT exS [] 0 4 exTxt.1 exTxt.2 (plain_of (by decide)) exPlain (by decide)
    (by decide) (by decide)).1 ⟨by decide, by decide +kernel⟩ (by decide)

theorem exEven : Even demo exT exS 0 4 := ⟨fun _ => by decide, by decide⟩

example : insert demo .toEnd exM ⟨u8 exT, (u8 exT).length⟩ =
    some (true, suppressNow exM (atEnd (Color.bs "git checkout \"my branch\" now")), atEnd (Color.bs "git checkout \"my branch\" now")) := by
  decide +kernel
example : (insert demo .nextFullWord exM ⟨u8 exT, (u8 exT).length⟩).map (fun r => (r.1, r.2.2.text)) = some (true, Color.bs "Git checkout") := by
  decide +kernel
example : (forward demo .nextFullWord 2 exM ⟨u8 exT, (u8 exT).length⟩).map (fun r => (r.1, r.2.2.text)) =
    some (0, Color.bs "Git checkout \"my branch\"") := by
  decide +kernel
example : (forward demo .nextFullWord 5 exM ⟨u8 exT, (u8 exT).length⟩).map (fun r => (r.1, r.2.2.text)) =
    some (2, Color.bs "Git checkout \"my branch\" now") := by
  decide +kernel
example : (forward demo .nextWord 2 exM ⟨u8 exT, (u8 exT).length⟩).map (fun r => (r.1, r.2.2.text)) =
    some (0, Color.bs "Git checkout \"my") := by
  decide +kernel
/-- `C52_next` applies to it: the word ends behind "checkout". -/
example : demo.forwardWord (u8 (accepted demo exT exS 0 (max 4 0))) (u8 ((accepted demo exT exS 0 (max 4 0)).take exT.length)).length =
    (u8 ((accepted demo exT exS 0 (max 4 0)).take 12)).length := by
  decide +kernel
/-- After the first word new suggestions are asked for. -/
example : ((insert demo .nextFullWord exM ⟨u8 exT, (u8 exT).length⟩).map
    (fun r => (r.2.1.items.length, (canSuggest ⟨false, false, false, 4⟩ r.2.1 r.2.2).1))) = some (1, true) := by
  decide +kernel
example : (canSuggest ⟨false, false, false, 4⟩ exM ⟨u8 exT, (u8 exT).length⟩).1 = false := by decide +kernel
example : removeIndex 3 [1, 3, 5] = [1, 4] := by decide
/-- A suggestion for the end of the line only. -/
example : (insert demo .toEnd (after demo (Color.bs "cd Pro") 3 (Color.bs "program files") 3) (atEnd (Color.bs "cd Pro"))).map
    (fun r => r.2.2.text) = some (Color.bs "cd program files") := by
  decide +kernel
example : getVisible demo (after demo (Color.bs "cd Pro") 3 (Color.bs "program files") 3) (atEnd (Color.bs "cd Pro")) =
    some (Color.bs "cd Program files") := by
  decide +kernel
/-- Paused, and with the cursor inside the line. -/
example : ¬ Asks ⟨false, false, false, 4⟩ { exM with paused := true } ⟨u8 exT, (u8 exT).length⟩ := fun h => absurd h.1 (by decide)
example : ¬ Asks ⟨false, false, false, 4⟩ exM ⟨u8 exT, 2⟩ := fun h => absurd h.2.2.2 (by decide +kernel)
example : insert demo .toEnd exM ⟨u8 exT, 2⟩ = some (false, exM, ⟨u8 exT, 2⟩) :=
  C52_refused demo .toEnd exM _ (by decide +kernel)
example : getVisible { demo with inline := false } exM ⟨u8 exT, 2⟩ = some (u8 exT) := by decide +kernel

/-! ### What goes wrong -/

/-- Violated (asking again): after a part of a suggestion was accepted, new suggestions are
always asked for, although the line is the one that the suggestion is for: `set_line` appends. -/
theorem C52_again_violated (cfg : Cfg) (hok : LowerOk cfg.lower) (m : Mgr) (b : Buf) (t s : List Nat) (k e : Nat)
    (R : Ready cfg m b t s k e) (E : Even cfg t s k e) (hl : m.line ≠ []) (hs : m.suppress = false) (hpz : m.paused = false)
    (a : Ask) (ha : a.reading = false ∧ a.selection = false) (m' : Mgr) (b' : Buf)
    (h : insert cfg .nextFullWord m b = some (true, m', b')) (hr : m'.items ≠ []) :
    (canSuggest a m' b').1 = true := by
  obtain ⟨m1, b1, h1, hw, S⟩ := insert_full hok R E
  rw [h1] at h
  simp only [Option.some.injEq, Prod.mk.injEq, true_and] at h
  obtain ⟨rfl, rfl⟩ := h
  have hle := hw.le
  rw [List.length_drop] at hle
  have := R.longer
  have := R.fits.1
  by_cases hp : t.length + nwLen (inQuotes t e) (s.drop (t.length - k)) < k + s.length
  · obtain ⟨R', hline, hsup, hpa⟩ := S.part hp
    rw [canSuggest_asks ⟨by rw [hpa]; exact hpz, ha.1, ha.2, by rw [S.buf]⟩, hline, hsup, hs]
    refine ⟨?_, by simp⟩
    intro h
    have := congrArg List.length h
    rw [List.length_append] at this
    exact hl (List.eq_nil_of_length_eq_zero (by omega))
  · exact absurd (S.whole (by omega)).1.1 hr

/-- Violated (runs of separators): the suggestion is "x a/bcd" and the line "x a//b"; "x a//bcd" is
shown, but accepting it gives "x a//bd". -/
theorem C52_slash_violated :
    getVisible { demo with originalCase := false } (after { demo with originalCase := false } (Color.bs "x a//b") 2 (Color.bs "x a/bcd") 0)
      (atEnd (Color.bs "x a//b")) = some (Color.bs "x a//bcd") ∧
    (insert { demo with originalCase := false } .toEnd (after { demo with originalCase := false } (Color.bs "x a//b") 2 (Color.bs "x a/bcd") 0)
      (atEnd (Color.bs "x a//b"))).map (fun r => (r.1, r.2.2.text)) = some (true, Color.bs "x a//bd") := by
  decide +kernel

/-- Violated (accents): the suggestion is "cafe xyz" and the line "café x"; accepting the next
word never ends. -/
theorem C52_hang_violated :
    getVisible demo (after demo (u8 [99, 97, 102, 233, 32, 120]) 6 (Color.bs "cafe xyz") 0) (atEnd (u8 [99, 97, 102, 233, 32, 120])) =
      some (u8 [99, 97, 102, 233, 32, 120, 121, 122]) ∧
    insert demo .nextWord (after demo (u8 [99, 97, 102, 233, 32, 120]) 6 (Color.bs "cafe xyz") 0) (atEnd (u8 [99, 97, 102, 233, 32, 120])) = none := by
  decide +kernel

/-- Violated (accents, characters): the suggestion is "e xä y" and the line "é x"; accepting the
next full word leaves half of a character. -/
theorem C52_cut_violated :
    ((insert demo .nextFullWord (after demo (u8 [233, 32, 120]) 3 (u8 [101, 32, 120, 228, 32, 121]) 0) (atEnd (u8 [233, 32, 120]))).map
      (fun r => (r.1, r.2.2.text))) = some (true, u8 [233, 32, 120] ++ [195]) ∧
    ¬ ∃ cs, Txt cs ∧ u8 cs = u8 [233, 32, 120] ++ [195] := by
  refine ⟨by decide +kernel, ?_⟩
  rintro ⟨cs, ht, h⟩
  have e0 : ∀ c l, Txt (c :: l) → ∀ d r, u8 (c :: l) = specUtf8 d ++ r → IsText d → c = d ∧ u8 l = r := by
    intro c l ht d r h hd
    have h1 := next_u8 ht.head (u8 l)
    rw [← u8_cons, h, next_u8 hd] at h1
    simp only [Prod.mk.injEq] at h1
    exact ⟨h1.1.symm, h1.2.symm⟩
  have step : ∀ cs d r, Txt cs → u8 cs = specUtf8 d ++ r → IsText d → ∃ l, cs = d :: l ∧ Txt l ∧ u8 l = r := by
    intro cs d r ht h hd
    cases cs with
    | nil =>
      rw [u8_nil] at h
      have := List.append_eq_nil_iff.1 h.symm
      exact absurd this.1 (Utf.specUtf8_ne_nil d)
    | cons c l =>
      obtain ⟨rfl, h2⟩ := e0 c l ht d r h hd
      exact ⟨l, rfl, ht.tail, h2⟩
  rw [u8_cons, List.append_assoc] at h
  obtain ⟨l1, rfl, t1, h1⟩ := step _ _ _ ht h (by decide)
  rw [u8_cons, List.append_assoc] at h1
  obtain ⟨l2, rfl, t2, h2⟩ := step _ _ _ t1 h1 (by decide)
  rw [u8_cons, List.append_assoc] at h2
  obtain ⟨l3, rfl, t3, h3⟩ := step _ _ _ t2 h2 (by decide)
  rw [u8_nil, List.nil_append] at h3
  cases l3 with
  | nil => simp [u8] at h3
  | cons c l =>
    have hl : (specUtf8 c).length ≤ 1 := by
      have := congrArg List.length h3
      rw [u8_cons, List.length_append] at this
      simp at this
      omega
    have h128 : c < 128 := by
      have hcc := t3.head.2.1
      unfold specUtf8 at hl
      split at hl
      · omega
      · split at hl
        · simp at hl
        · split at hl
          · simp at hl
          · simp at hl
    rw [u8_cons] at h3
    have hs : specUtf8 c = [c] := by unfold specUtf8; rw [if_pos h128]
    rw [hs] at h3
    simp at h3
    omega

/-- Violated (stale): the line has become "git cx", which "git checkout" does not continue, so
nothing is shown; accepting a word replaces what was typed all the same. -/
theorem C52_stale_violated :
    getVisible demo (after demo (Color.bs "git c") 4 (Color.bs "git checkout x") 0) (atEnd (Color.bs "git cx")) = none ∧
    (insert demo .nextFullWord (after demo (Color.bs "git c") 4 (Color.bs "git checkout x") 0) (atEnd (Color.bs "git cx"))).map
      (fun r => (r.1, r.2.2.text)) = some (true, Color.bs "git checkout") := by
  decide +kernel

/-- Violated (quotes): the suggestion is for the end of the line, behind a quote of the last
word; the quote is not seen and the word ends at the blank in it. -/
theorem C52_quote_violated :
    (insert demo .nextFullWord (after demo (Color.bs "x=\"a") 0 (Color.bs " b\" c") 4) (atEnd (Color.bs "x=\"a"))).map
      (fun r => (r.1, r.2.2.text)) = some (true, Color.bs "x=\"a b\" c") ∧
    NextWord (inQuotes (Color.bs "x=\"a") 0) (Color.bs " b\" c") 3 := by
  refine ⟨by decide +kernel, ⟨by omega, by decide, ⟨1, by omega, ?_, ?_, .inl (by omega), ?_⟩, .inr ⟨32, rfl, .inl rfl, by decide⟩⟩⟩
  · intro j hj
    obtain rfl : j = 0 := by omega
    exact ⟨32, rfl, .inl rfl⟩
  · intro c hc
    rw [show (Color.bs " b\" c")[1]? = some 98 by decide] at hc
    obtain rfl := Option.some.inj hc
    decide
  · intro j c h1 h2 hc hb
    obtain rfl | rfl : j = 1 ∨ j = 2 := by omega
    · rw [show (Color.bs " b\" c")[1]? = some 98 by decide] at hc
      obtain rfl := Option.some.inj hc
      exact absurd hb (by decide)
    · rw [show (Color.bs " b\" c")[2]? = some 34 by decide] at hc
      obtain rfl := Option.some.inj hc
      exact absurd hb (by decide)

/-- Violated (no history): the index -1 of suggestions that are not from the history does not
stay -1. -/
theorem C52_remove_violated : removeIndex 3 [-1, 2, 3, 4] = [-2, 2, 3] := by decide

end Clink.Suggest
