import Verif.Proof.AttributesConsole

/-! C51: text attributes and colours. -/

namespace Clink.Attributes

open Spec

/-- Attributes that are merged look as if the second ones were put over the first ones. -/
theorem C51_merge (l : Look) (a b c : Attr) : over l (merge a b) = over (over l a) b ∧ merge (merge a b) c = merge a (merge b c) := ⟨over_merge l a b, merge_assoc a b c⟩

-- terminal/test/attributes.cpp
example : merge {} defaults = defaults ∧ merge defaults {} = defaults := by decide
example : merge (({} : Attr).setFg 5) {} = ({} : Attr).setFg 5 := by decide
example : merge ((({} : Attr).setFg 12).setBold true) ((({} : Attr).setFg 13).setBold false) = (({} : Attr).setFg 13).setBold false := by decide
example : merge ((({} : Attr).setFg 14).setBold false) (({} : Attr).resetBg) = ((({} : Attr).setFg 14).setBold false).resetBg := by decide

/-- The difference of attributes leads from the first to the second and sets nothing that stays the same. -/
theorem C51_diff {a b : Attr} (ha : Full a) (hb : Full b) : over (over {} a) (diff a b) = over {} b ∧
    ((diff a b).hasFg = true ↔ a.fg ≠ b.fg) ∧ ((diff a b).hasBg = true ↔ a.bg ≠ b.bg) ∧ ((diff a b).hasBold = true ↔ a.bold ≠ b.bold) ∧
    ((diff a b).hasUnderline = true ↔ a.underline ≠ b.underline) ∧ ((diff a b).hasReverse = true ↔ a.reverse ≠ b.reverse) := by
  refine ⟨by rw [← over_merge, merge_diff ha hb], ?_⟩
  obtain ⟨i1, i2, i3, i4, i5⟩ := hb
  simp only [diff, i1, i2, i3, i4, i5, Bool.true_and, Bool.not_eq_true', beq_eq_false_iff_ne, bne_iff_ne, ne_eq]
  exact ⟨not_congr eq_comm, not_congr eq_comm, not_congr eq_comm, not_congr eq_comm, not_congr eq_comm⟩

example : Full (defaults.setFg 3) ∧ diff defaults (defaults.setFg 3) = { defaults.setFg 3 with hasBg := false, hasBold := false, hasUnderline := false, hasReverse := false } := by
  refine ⟨⟨rfl, rfl, rfl, rfl, rfl⟩, by decide⟩

/-- The numbers of a sequence are read as they are written; at most 32, and at most 2147483647. -/
theorem C51_decode (b : List Nat) (f : Nat) (hb : ∀ c ∈ b, 48 ≤ c ∧ c ≤ 59) (hf : 64 ≤ f) (hx : ∀ x ∈ fields b, value x ≤ 2147483647) :
    decodeCsi 32 ([27, 91] ++ b ++ [f]) = some { final := f, params := numbers b } := decode_body b f hb hf hx

example : decodeCsi 32 ([27, 91] ++ Color.bs "1;;38;5;123" ++ [109]) = some { final := 109, params := [1, 0, 38, 5, 123] } := by decide +kernel
example : numbers (Color.bs "38:2;7") = [382, 7] := by decide
example : (numbers (Color.bs "1;2;3;4;5;6;7;8;9;10;11;12;13;14;15;16;17;18;19;20;21;22;23;24;25;26;27;28;29;30;31;32;33")).length = 32 := by decide +kernel

/-- What a sequence of numbers does to the look is exactly what the description says. -/
theorem C51_sgr (ps : List Nat) (l m : Look) : (ps ≠ [] → (over l (sgr ps) = m ↔ Sgr ps l m)) ∧ over l (sgr []) = {} :=
  ⟨fun h => eq_comm.trans (sgr_iff h l m), rfl⟩

example : over {} (sgr [1, 36, 48, 5, 196]) = { fg := .index 6, bg := .rgb 31 0 0, bold := true } := by decide +kernel
example : over {} (sgr [38, 2, 255, 128, 7, 4]) = { fg := .rgb 31 16 0, underline := true } := by decide +kernel
example : over {} (sgr [91, 103, 7, 39]) = { bg := .index 11, reverse := true } := by decide +kernel
example : over { fg := .index 3 } (sgr [38, 5]) = { fg := .index 3 } := by decide +kernel
example : over {} (sgr [38, 9, 31]) = { fg := .index 1 } := by decide +kernel
example : over {} (sgr [38, 5, 300]) = over {} (sgr [38, 5, 44]) := by decide +kernel
example : over {} (sgr [38, 5, 255]) = { fg := .rgb 29 29 29 } := by decide +kernel

/-- A whole sequence, from the characters to the look. -/
theorem C51_sequence (b : List Nat) (hb : ∀ c ∈ b, 48 ≤ c ∧ c ≤ 59) (hx : ∀ x ∈ fields b, value x ≤ 2147483647) (l m : Look) :
    (decodeCsi 32 ([27, 91] ++ b ++ [109])).map (fun c => over l (sgr c.params)) = some m ↔ Sequence b l m := by
  rw [decode_body b 109 hb (by omega) hx, ← sequence_iff]
  simp [eq_comm]

example : Sequence (Color.bs "1;36") { bg := .index 2 } { fg := .index 6, bg := .index 2, bold := true } := (sequence_iff _ _ _).1 (by decide +kernel)
example : Sequence [] { bg := .index 2 } {} := (sequence_iff _ _ _).1 (by decide +kernel)

/-- What the printer writes when the attributes change leads to the new look exactly if it is not one where both colours become the default ones and text stays bold or underlined.
After `print` with a sequence of its own (`nodiff`) it is always right. -/
theorem C51_flush (p : Printer) (hs : Full p.set) (hn : Full p.next) (hf : (over {} p.next).fg.Basic) (hb : (over {} p.next).bg.Basic) (l : Look) (hl : l.reverse = false) (hr : (over {} p.next).reverse = false)
    (hd : p.nodiff = true ∨ l = over {} p.set) : Shows l p.flush.2 [] (over {} p.next) ↔ p.nodiff = true ∨ ¬ Lost l (over {} p.next) := flush_lost p hs hn hf hb l hl hr hd

example : Full (defaults.setFg 3) ∧ (over {} (defaults.setFg 3)).fg.Basic ∧ ¬ Lost {} (over {} (defaults.setFg 3)) :=
  ⟨⟨rfl, rfl, rfl, rfl, rfl⟩, (by decide : (3 : Nat) < 16), fun h => absurd h.1 (by decide)⟩

/-- Each text is shown as it should be, for every sequence of calls with the 16 colours, without reverse, and with bold and underline only on text that has a colour. -/
theorem C51_printer {ops : List Op} {texts : List (Look × List Nat)} {m : Look} (hw : Wants {} ops texts m) (ht : AllTame false {} ops) : ∃ e, Shows {} (perform {} ops).2 texts e := by
  obtain ⟨e, h, _⟩ := perform_shows hw {} {} inv_start ht
  exact ⟨e, h⟩

def demo : List Op :=
  [.set (({} : Attr).setFg 1), .print (Color.bs "a"), .printAttr ((({} : Attr).setBg 12).setUnderline true) (Color.bs "b"), .print (Color.bs "c"), .set defaults, .printText (Color.bs "7;1") (Color.bs "d"),
    .print (Color.bs "e"), .set (({} : Attr).setBg 3), .printText (Color.bs "38;5;99") (Color.bs "f"), .print (Color.bs "g")]

example : (perform {} demo).2 = [.seq (Color.bs "31"), .text (Color.bs "a"), .seq (Color.bs "104;4"), .text (Color.bs "b"), .seq (Color.bs "49;24"), .text (Color.bs "c"), .seq (Color.bs "0"),
    .seq (Color.bs "7;1"), .text (Color.bs "d"), .seq (Color.bs "0"), .text (Color.bs "e"), .seq (Color.bs "39;43;22;24"), .seq (Color.bs "38;5;99"), .text (Color.bs "f"), .seq (Color.bs "39;43;22;24"),
    .text (Color.bs "g")] := by decide +kernel

theorem demo_wants : Wants {} demo [({ fg := .index 1 }, Color.bs "a"), ({ fg := .index 1, bg := .index 12, underline := true }, Color.bs "b"), ({ fg := .index 1 }, Color.bs "c"),
    ({ reverse := true, bold := true }, Color.bs "d"), ({}, Color.bs "e"), ({ fg := .rgb 16 11 31, bg := .index 3 }, Color.bs "f"), ({ bg := .index 3 }, Color.bs "g")] { bg := .index 3 } := by
  exact .set (.print (.printAttr (.print (.set (.printText (l' := { reverse := true, bold := true }) ((sequence_iff _ _ _).1 (by decide +kernel))
    (.print (.set (.printText (l' := { fg := .rgb 16 11 31, bg := .index 3 }) ((sequence_iff _ _ _).1 (by decide +kernel)) (.print .done)))))))))

theorem basic_small {n : Nat} (h : n < 16) : (Colour.index n).Basic := h

theorem demo_tame : AllTame false {} demo := by
  exact .set ⟨basic_small (by decide), trivial, rfl, fun h => absurd h (by decide)⟩ (.print (.printAttr ⟨basic_small (by decide), basic_small (by decide), rfl, fun h => absurd h (by decide)⟩
    (.print (.set tame_plain (.printText (l' := { reverse := true, bold := true }) ((sequence_iff _ _ _).1 (by decide +kernel)) (.inl rfl)
      (.print (.set ⟨trivial, basic_small (by decide), rfl, fun _ h => absurd h (by decide)⟩
        (.printText (l' := { fg := .rgb 16 11 31, bg := .index 3 }) ((sequence_iff _ _ _).1 (by decide +kernel)) (.inr ⟨rfl, rfl⟩) (.print .done)))))))))

/-- The console without escape sequences shows what a sequence of numbers means, except in exactly these cases: underlined and reversed; a colour below 8 without `1` while text is bold; `22` without a colour
while text is bold with a colour below 8.  The other bits stay. -/
theorem C51_console (best : Nat × Nat × Nat → Option (BitVec 8)) (dflt : Nat) (s : Console) (l m : Look) (ps : List Nat) (hm : over l (sgr ps) = m) (hon : On best dflt s l)
    (hur : ¬ (l.reverse = true ∧ l.underline = true)) (f g b : Nat) (hf : Number best (dflt % 16) l.fg f) (hg : Number best (dflt % 16) m.fg g) (hb : Number best (dflt / 16 % 16) m.bg b) :
    (On best dflt (s.setAttributes best dflt (sgr ps)) m ↔
      ¬ (m.reverse = true ∧ m.underline = true) ∧ ((sgr ps).hasFg = true → (sgr ps).hasBold = false → l.bold = true → 8 ≤ g) ∧
      ((sgr ps).hasFg = false → (sgr ps).hasBold = true → l.bold = true → m.bold = false → 8 ≤ f)) ∧
    (s.setAttributes best dflt (sgr ps)).word / 256 % 128 = s.word / 256 % 128 ∧ (s.setAttributes best dflt (sgr ps)).word < 65536 := by
  subst hm
  have h := set_iff best dflt s l (sgr ps) (sgr_wf ps) hon hur f g b hf hg hb
  refine ⟨h.1.trans ?_, h.2⟩
  refine and_congr Iff.rfl (and_congr Iff.rfl ?_)
  constructor
  · intro k h1 h2 h3 h4
    refine k h1 h2 h3 ?_
    simpa [over, h2] using h4
  · intro k h1 h2 h3 h4
    refine k h1 h2 h3 ?_
    simpa [over, h2] using h4

def none' : Nat × Nat × Nat → Option (BitVec 8) := fun _ => none

/-- A console with the usual colours, 7 on 0. -/
def start : Console := ⟨0x07, false, false⟩

theorem start_on (best : Nat × Nat × Nat → Option (BitVec 8)) : On best 0x07 start {} :=
  ⟨⟨7, 0, .default, .default, by decide, rfl, rfl, rfl⟩, rfl, rfl⟩

example : (start.setAttributes none' 0x07 (sgr [1, 36])).word = 0x0b := by decide +kernel
example : (start.setAttributes none' 0x07 (sgr [41, 7])).word = 0x74 := by decide +kernel
example : ((start.setAttributes none' 0x07 (sgr [41, 7])).setAttributes none' 0x07 (sgr [27, 4])).word = 0x8047 := by decide +kernel
example : ((⟨0x0107, false, false⟩ : Console).setAttributes none' 0x07 (sgr [92])).word = 0x010a := by decide +kernel
example : (start.setAttributes (fun c => if c = (0, 0, 255) then some 4 else none) 0x07 (sgr [38, 5, 21])).word = 0x01 := by decide +kernel

/-- Everything that is written is shown as it should be on the console. -/
theorem C51_screen (best : Nat × Nat × Nat → Option (BitVec 8)) (dflt : Nat) {l m : Look} {o : List Out} {texts : List (Look × List Nat)} (h : Shows l o texts m) (s : Console) (hs : On best dflt s l) (hf : Fine best l)
    (hc : Calm best l o) : ∃ ts s', s.run best dflt o = some (ts, s') ∧ On best dflt s' m ∧ Fine best m ∧ s'.word / 256 % 128 = s.word / 256 % 128 ∧
      ts.map (·.2) = texts.map (·.2) ∧ ∀ x ∈ ts.zip texts, On best dflt x.1.1 x.2.1 ∧ x.1.1.word / 256 % 128 = s.word / 256 % 128 := run_shows best dflt h s hs hf hc

/-- The printer and the console together: each text is shown as it should be. -/
theorem C51_end (best : Nat × Nat × Nat → Option (BitVec 8)) (dflt : Nat) {ops : List Op} {texts : List (Look × List Nat)} {m : Look} (hw : Wants {} ops texts m) (ht : AllTame false {} ops) (hc : AllCalm best {} ops)
    (s : Console) (hs : On best dflt s {}) : ∃ ts s', s.run best dflt (perform {} ops).2 = some (ts, s') ∧ ts.map (·.2) = texts.map (·.2) ∧
      ∀ x ∈ ts.zip texts, On best dflt x.1.1 x.2.1 ∧ x.1.1.word / 256 % 128 = s.word / 256 % 128 := by
  obtain ⟨e, h, -⟩ := perform_shows hw {} {} inv_start ht
  have hcalm := perform_calm (best := best) hw {} {} inv_start ht rfl rfl hc
  obtain ⟨ts, s', h1, -, -, -, h2, h3⟩ := run_shows best dflt h s hs (tame_fine best tame_plain) hcalm
  exact ⟨ts, s', h1, h2, h3⟩

def blue : Nat × Nat × Nat → Option (BitVec 8) := fun _ => some 12

theorem demo_calm : AllCalm blue {} demo := by
  exact .set rfl (.print (.printAttr (.inl rfl) (.print (.set rfl (.printText (l' := { reverse := true, bold := true }) (by decide) (by decide +kernel) ((sequence_iff _ _ _).1 (by decide +kernel))
    ⟨⟨_, .default⟩, ⟨_, .default⟩, by decide⟩ (.inr rfl) (.print (.set rfl (.printText (l' := { fg := .rgb 16 11 31, bg := .index 3 }) (by decide) (by decide +kernel) ((sequence_iff _ _ _).1 (by decide +kernel))
      ⟨⟨_, .rgb (n := 12) rfl (by decide)⟩, ⟨_, .index (by decide)⟩, by decide⟩ (.inl rfl) (.print .done)))))))))

example : (start.run blue 0x07 (perform {} demo).2).map (fun r => r.1.map fun t => (t.1.word, t.2)) =
    some [(0x04, Color.bs "a"), (0x8094, Color.bs "b"), (0x04, Color.bs "c"), (0xf0, Color.bs "d"), (0x07, Color.bs "e"), (0x69, Color.bs "f"), (0x67, Color.bs "g")] := by decide +kernel

/-! What goes wrong. -/

theorem shows_unique {l m m' : Look} {o : List Out} {t t' : List (Look × List Nat)} (h : Shows l o t m) (h' : Shows l o t' m') : t = t' ∧ m = m' := by
  induction h generalizing t' with
  | done =>
    obtain ⟨h1, h2⟩ := shows_nil.1 h'
    exact ⟨h1.symm, h2.symm⟩
  | @text l d o t m _ ih =>
    generalize ho : ([.text d] ++ o : List Out) = o' at h'
    cases h' with
    | text h2 =>
      simp at ho
      obtain ⟨rfl, rfl⟩ := ho
      obtain ⟨h3, h4⟩ := ih h2
      exact ⟨by rw [h3], h4⟩
    | _ => simp at ho
  | @seq l b l' o t m hb _ ih =>
    generalize ho : ([.seq b] ++ o : List Out) = o' at h'
    cases h' with
    | seq h1 h2 =>
      simp at ho
      obtain ⟨rfl, rfl⟩ := ho
      obtain rfl := sequence_unique hb h1
      exact ih h2
    | _ => simp at ho

/-- Bold text that is underlined as well is no longer bold. -/
theorem C51_lost_violated : ∃ ops texts m, Wants {} ops texts m ∧ ¬ ∃ e, Shows {} (perform {} ops).2 texts e := by
  refine ⟨[.set (({} : Attr).setBold true), .print (Color.bs "a"), .set (({} : Attr).setUnderline true), .print (Color.bs "b")], _, _, .set (.print (.set (.print .done))), ?_⟩
  rintro ⟨e, h⟩
  have e1 : (perform {} [.set (({} : Attr).setBold true), .print (Color.bs "a"), .set (({} : Attr).setUnderline true), .print (Color.bs "b")]).2 =
      [.seq (Color.bs "0;1"), .text (Color.bs "a"), .seq (Color.bs "0;4"), .text (Color.bs "b")] := by decide +kernel
  rw [e1] at h
  have h' : Shows {} [.seq (Color.bs "0;1"), .text (Color.bs "a"), .seq (Color.bs "0;4"), .text (Color.bs "b")] [({ bold := true }, Color.bs "a"), ({ underline := true }, Color.bs "b")] { underline := true } :=
    .seq (l' := { bold := true }) ((sequence_iff _ _ _).1 (by decide +kernel)) (.text (.seq (l' := { underline := true }) ((sequence_iff _ _ _).1 (by decide +kernel)) (.text .done)))
  exact absurd (shows_unique h h').1 (by decide)

/-- Reverse is never written. -/
theorem C51_reverse_violated : ∃ ops texts m, Wants {} ops texts m ∧ ¬ ∃ e, Shows {} (perform {} ops).2 texts e := by
  refine ⟨[.set ((({} : Attr).setFg 2).setReverse true), .print (Color.bs "a")], _, _, .set (.print .done), ?_⟩
  rintro ⟨e, h⟩
  have e1 : (perform {} [.set ((({} : Attr).setFg 2).setReverse true), .print (Color.bs "a")]).2 = [.seq (Color.bs "32"), .text (Color.bs "a")] := by decide +kernel
  rw [e1] at h
  have h' : Shows {} [.seq (Color.bs "32"), .text (Color.bs "a")] [({ fg := .index 2 }, Color.bs "a")] { fg := .index 2 } :=
    .seq (l' := { fg := .index 2 }) ((sequence_iff _ _ _).1 (by decide +kernel)) (.text .done)
  exact absurd (shows_unique h h').1 (by decide)

/-- Other colours are written as one of the 16. -/
theorem C51_rgb_violated : ∃ ops texts m, Wants {} ops texts m ∧ ¬ ∃ e, Shows {} (perform {} ops).2 texts e := by
  refine ⟨[.set (({} : Attr).setFgRgb 255 0 0), .print (Color.bs "a")], _, _, .set (.print .done), ?_⟩
  rintro ⟨e, h⟩
  have e1 : (perform {} [.set (({} : Attr).setFgRgb 255 0 0), .print (Color.bs "a")]).2 = [.seq (Color.bs "97"), .text (Color.bs "a")] := by decide +kernel
  rw [e1] at h
  have h' : Shows {} [.seq (Color.bs "97"), .text (Color.bs "a")] [({ fg := .index 15 }, Color.bs "a")] { fg := .index 15 } :=
    .seq (l' := { fg := .index 15 }) ((sequence_iff _ _ _).1 (by decide +kernel)) (.text .done)
  exact absurd (shows_unique h h').1 (by decide)

/-- The first text with a sequence of its own leaves its attributes behind, if the text around it has a colour. -/
theorem C51_text_violated : ∃ ops texts m, Wants {} ops texts m ∧ ¬ ∃ e, Shows {} (perform {} ops).2 texts e := by
  refine ⟨[.set (({} : Attr).setFg 2), .printText (Color.bs "1") (Color.bs "a"), .print (Color.bs "b")], _, _,
    .set (.printText (l' := { fg := .index 2, bold := true }) ((sequence_iff _ _ _).1 (by decide +kernel)) (.print .done)), ?_⟩
  rintro ⟨e, h⟩
  have e1 : (perform {} [.set (({} : Attr).setFg 2), .printText (Color.bs "1") (Color.bs "a"), .print (Color.bs "b")]).2 =
      [.seq (Color.bs "32"), .seq (Color.bs "1"), .text (Color.bs "a"), .text (Color.bs "b")] := by decide +kernel
  rw [e1] at h
  have h' : Shows {} [.seq (Color.bs "32"), .seq (Color.bs "1"), .text (Color.bs "a"), .text (Color.bs "b")] [({ fg := .index 2, bold := true }, Color.bs "a"), ({ fg := .index 2, bold := true }, Color.bs "b")]
      { fg := .index 2, bold := true } :=
    .seq (l' := { fg := .index 2 }) ((sequence_iff _ _ _).1 (by decide +kernel)) (.seq (l' := { fg := .index 2, bold := true }) ((sequence_iff _ _ _).1 (by decide +kernel)) (.text (.text .done)))
  exact absurd (shows_unique h h').1 (by decide)

/-- On the console, bold and then cyan is dark cyan, although bold and cyan in one sequence is bright; and bold that is turned off stays bright, although a comment in the code (win_screen_buffer.cpp:1162-1176)
says that this can make it cyan; and underlined and reversed is not underlined. -/
theorem C51_console_violated :
    (start.run none' 0x07 [.seq (Color.bs "1;36"), .text [97], .seq (Color.bs "0"), .seq (Color.bs "1"), .seq (Color.bs "36"), .text [98]]).map (fun r => r.1.map (·.1.word)) = some [0x0b, 0x03] ∧
    (start.run none' 0x07 [.seq (Color.bs "1;36"), .seq (Color.bs "22"), .text [97]]).map (fun r => r.1.map (·.1.word)) = some [0x0b] ∧
    (start.run none' 0x07 [.seq (Color.bs "4"), .text [97], .seq (Color.bs "7"), .text [98], .seq (Color.bs "27"), .text [99]]).map (fun r => r.1.map (·.1.word)) = some [0x8007, 0x70, 0x07] := by
  refine ⟨?_, ?_, ?_⟩ <;> decide +kernel

end Clink.Attributes
