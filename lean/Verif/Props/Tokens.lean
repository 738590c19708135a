import Verif.Proof.TokensWords

/-!
C14: splitting a line into commands.  C15: splitting it into words.
-/

namespace Clink.Tokens

open Utf (more IsText)
open Doskey (Lookup)
open Doskey.Spec (flat)
open Tokens.Spec

/-- A line of well-formed text is split into commands: the ranges reported are separated by one `&` or `|`, or by two
of the same, with blanks and parentheses around; a separator inside a range is quoted, escaped, part of the
redirection of a handle, part of a remark, or before the start of the command.  The same holds for the text before
the cursor.  See `Spec.Split`. -/
theorem C14_split (lookup : Lookup) (enh : Bool) (hl : AsciiNames lookup) (cs : List Nat) (hcs : ∀ c ∈ cs, IsText c) (hne : cs ≠ []) :
    ∃ rs, Split lookup true 0 cs rs ∧ (∀ cursor, bounds lookup enh (flat cs) cursor false = some rs) ∧
      ∀ rest, bounds lookup enh (flat cs ++ rest) (flat cs).length true = some rs := by
  obtain ⟨rs, h1, h2⟩ := ranges_split hl enh (flat cs) _ cs (Nat.le_refl _) hcs (List.suffix_refl _) (fun h => absurd rfl h)
  rw [Nat.sub_self, decide_eq_true rfl] at h2
  have hrs : rs ≠ [] := by
    intro h
    rw [h] at h2
    cases h2
    exact hne rfl
  refine ⟨rs, h2, fun cursor => ?_, fun rest => ?_⟩
  · simp [bounds, h1, hrs]
  · have hu := h2.upTo
    rw [Nat.zero_add] at hu
    simp [bounds, h1, hu, hrs]

/-- Whatever the line, the analysis ends, and the ranges are in increasing order, do not overlap, and lie inside the
line; up to the cursor they lie before the cursor. -/
theorem C14_ordered (lookup : Lookup) (enh : Bool) (buffer : List Nat) (cursor : Nat) (hc : cursor ≤ buffer.length) :
    (∃ rs, bounds lookup enh buffer cursor false = some rs ∧ rs ≠ [] ∧ Ordered buffer.length 0 rs) ∧
    ∃ rs, bounds lookup enh buffer cursor true = some rs ∧ rs ≠ [] ∧ Ordered cursor 0 rs := by
  have key : ∀ text, ∃ rs, ranges lookup enh text text = some rs ∧ Ordered text.length 0 rs := fun text => by
    obtain ⟨rs, h1, h2⟩ := ranges_some lookup enh text text (Nat.le_refl _)
    exact ⟨rs, h1, h2 0 (Nat.zero_le _)⟩
  constructor
  · obtain ⟨rs, h1, h2⟩ := key buffer
    by_cases hrs : rs = []
    · exact ⟨[(0, 0)], by simp [bounds, h1, hrs], by simp, by simp [Ordered]⟩
    · exact ⟨rs, by simp [bounds, h1, hrs], hrs, h2⟩
  · obtain ⟨rs, h1, h2⟩ := key (buffer.take cursor)
    have hlen : (buffer.take cursor).length = cursor := by simp; omega
    rw [hlen] at h2
    by_cases hrs : rs = []
    · exact ⟨[(0, 0)], by simp [bounds, h1, hrs, upTo], by simp, by simp [Ordered]⟩
    · exact ⟨upTo cursor rs, by simp [bounds, h1, upTo_ne_nil hrs], upTo_ne_nil hrs, Ordered.prefix h2 (upTo_prefix _ _)⟩

/-- Three commands; the first has a quoted and an escaped separator and a redirected handle. -/
def sample : List Nat := str "dir \"a&b\" ^& 2>&1 &(echo x) || rem y & z"

example : sample ≠ [] ∧ (∀ c ∈ sample, IsText c) ∧ AsciiNames (fun _ => none) ∧
    bounds (fun _ => none) true (flat sample) 0 false = some [(0, 18), (20, 6), (31, 9)] := by
  refine ⟨by decide, by decide, by simp [AsciiNames], by decide +kernel⟩

/-- The same with an alias: there is no command name to be found in its arguments. -/
example : AsciiNames (fun w => if w = str "rem" then some (str "echo") else none) ∧
    bounds (fun w => if w = str "rem" then some (str "echo") else none) true (str "rem y & z") 0 false = some [(0, 6), (8, 1)] := by
  refine ⟨?_, by decide +kernel⟩
  intro w h
  by_cases hw : w = str "rem"
  · subst hw; decide
  · simp [hw] at h

/-- The test for the text before the cursor. -/
example : (9 : Nat) ≤ (flat sample).length ∧ bounds (fun _ => none) true (flat sample) 22 true = some [(0, 18), (20, 2)] := by
  decide +kernel

/-! Where the code departs from "each range contains no unquoted separator". -/

/-- A redirection to a file with a name of one character in front of the command hides the separator. -/
theorem C14_short_redirection : ∃ x y, str ">x & dir" = x ++ 38 :: y ∧ mode x = .plain ∧ ¬ Handle x ∧
    bounds (fun _ => none) true (str ">x & dir") 0 false = some [(0, (str ">x & dir").length)] ∧
    bounds (fun _ => none) true (str ">xy & dir") 0 false = some [(0, 4), (6, 3)] := by
  refine ⟨str ">x ", str " dir", by decide, by decide, ?_, by decide +kernel, by decide +kernel⟩
  exact not_handle (q := str ">x") (d := 32) (by unfold Angle; omega)

/-- So does a redirection to a quoted name. -/
theorem C14_quoted_redirection : ∃ x y, str ">\"a b\" & dir" = x ++ 38 :: y ∧ mode x = .plain ∧ ¬ Handle x ∧
    bounds (fun _ => none) true (str ">\"a b\" & dir") 0 false = some [(0, (str ">\"a b\" & dir").length)] := by
  refine ⟨str ">\"a b\" ", str " dir", by decide, by decide, ?_, by decide +kernel⟩
  exact not_handle (q := str ">\"a b\"") (d := 32) (by unfold Angle; omega)

/-- An alias whose name is not ASCII: characters and bytes are mixed up, and the separator is skipped. -/
theorem C14_alias_not_ascii :
    let lookup : Lookup := fun w => if w = flat [8364] then some (str "dir") else none
    bounds lookup true (flat (8364 :: str " &b")) 0 false = some [(0, (flat (8364 :: str " &b")).length)] ∧
    bounds (fun w => if w = str "x" then some (str "dir") else none) true (str "x &b") 0 false = some [(0, 2), (3, 1)] := by
  decide +kernel

/-- A word that only becomes `rem` without its escaped character counts as `rem`. -/
theorem C14_escaped_rem : bounds (fun _ => none) true (str "re^xm a & dir") 0 false = some [(0, (str "re^xm a & dir").length)] ∧
    bounds (fun _ => none) true (str "rexm a & dir") 0 false = some [(0, 7), (9, 3)] := by
  decide +kernel

/-- A separator directly after `rem` ends the command.  Other characters that end a name make it a remark, also a redirection
symbol.  A longer name is no remark, and after a redirection with a digit `rem` is not seen. -/
theorem C14_rem : bounds (fun _ => none) true (str "rem& dir") 0 false = some [(0, 3), (5, 3)] ∧
    bounds (fun _ => none) true (str "rem/x & dir") 0 false = some [(0, 11)] ∧
    bounds (fun _ => none) true (str "rem<x & dir") 0 false = some [(0, 11)] ∧
    bounds (fun _ => none) true (str ">xy (@ Rem a & dir") 0 false = some [(0, 18)] ∧
    bounds (fun _ => none) true (str "premium & dir") 0 false = some [(0, 8), (10, 3)] ∧
    bounds (fun _ => none) true (str "echo rem & dir") 0 false = some [(0, 9), (11, 3)] ∧
    bounds (fun _ => none) true (str "2>xy rem a & dir") 0 false = some [(0, 11), (13, 3)] := by
  decide +kernel

/-- Remarks. -/
example : Remark (str "rem<x ") ∧ Remark (str ">xy (@ Rem a ") ∧ PlainRemark (str " (@ rEm/") ∧ Started (str "rem") := by
  refine ⟨⟨[], str "rem", 60, str "x ", by decide, ?_, by decide, by unfold IsRem; decide, by decide, .inr (.inl rfl)⟩,
    ⟨str ">xy (@ ", str "Rem", 32, str "a ", by decide, ?_, by decide, by unfold IsRem; decide, by decide, .inl (by decide)⟩,
    ⟨str " (@ ", str "rEm", 47, [], by decide, by decide, by unfold IsRem; decide, by decide⟩,
    ⟨[], 114, str "em", by decide, by decide, by decide⟩⟩
  · intro x c y h; simp at h
  · intro x c y h _
    have h3 : ∀ b, (b = [] ∨ b = str "x") → InTarget (62 :: b) := by
      intro b hb
      refine ⟨[], 62, b, rfl, .inr rfl, rfl, ?_⟩
      intro y z w h
      rcases hb with rfl | rfl
      · simp at h
      · rw [show str "x" = [120] by decide] at h
        cases y with
        | nil => simp at h; intro _ hz; unfold Blank at hz; omega
        | cons _ _ => simp at h
    rw [show str ">xy (@ " = [62, 120, 121, 32, 40, 64, 32] by decide] at h
    match x, h with
    | [], h => simp at h; exact .inr (.inl (.inr h.1.symm))
    | [a], h => simp at h; rw [← h.1]; exact .inr (.inr (h3 [] (.inl rfl)))
    | [a, b], h => simp at h; rw [← h.1, ← h.2.1]; exact .inr (.inr (h3 _ (.inr (by decide))))
    | [_, _, _], h => simp at h; left; simp; omega
    | [_, _, _, _], h => simp at h; left; simp; omega
    | [_, _, _, _, _], h => simp at h; left; simp; omega
    | [_, _, _, _, _, _], h => simp at h; left; simp; omega
    | _ :: _ :: _ :: _ :: _ :: _ :: _ :: _, h => simp at h

/-- The `&` of a redirection without a handle ends the command. -/
theorem C14_redirection_split : bounds (fun _ => none) true (str "echo hi >&2 & dir") 0 false = some [(0, 9), (10, 2), (14, 3)] ∧
    bounds (fun _ => none) true (str "echo hi 1>&2 & dir") 0 false = some [(0, 13), (15, 3)] := by
  decide +kernel

/-! C15 -/

/-- The analysis of a line ends with words that lie inside the line, in order, and do not overlap, except that a word
may begin with a plus sign after a space that ends the word before.  Up to the cursor, the last word ends at the
cursor, or at the closing quote before the cursor. -/
theorem C15_words (lookup : Lookup) (enh : Bool) (depr : List Nat → Bool) (translate : Nat) (buffer : List Nat) (cursor : Nat)
    (hb : buffer.length < 65536) (hc : cursor ≤ buffer.length) :
    (∃ ws, collect lookup enh depr translate buffer cursor false = some ws ∧ ws ≠ [] ∧
      WordsOrdered buffer buffer.length 0 (ws.map fun w => (w.offset, w.length))) ∧
    ∃ ws w, collect lookup enh depr translate buffer cursor true = some ws ∧
      WordsOrdered buffer cursor 0 (ws.map fun w => (w.offset, w.length)) ∧ ws.getLast? = some w ∧
      (w.offset + w.length = cursor ∨ w.quoted = true ∧ w.offset + w.length + 1 = cursor ∧ buffer.getD (cursor - 1) 0 = 34) := by
  obtain ⟨⟨rs, hr1, hr2, hr3⟩, qs, hq1, hq2, hq3⟩ := C14_ordered lookup enh buffer cursor hc
  constructor
  · have hf := fun r hr => commandWords_order lookup enh depr buffer buffer.length (Nat.le_refl _) hb r hr
    obtain ⟨ws, h1, h2⟩ := allWords_order hf rs 0 hr3
    obtain ⟨ls, h3, -⟩ := hf _ (Spec.Ordered.last rs 0 hr3 hr2)
    refine ⟨(addEnd buffer cursor false (ls = []) ws).map (unquote buffer), by simp only [collect, hr1, Option.bind_some, Bool.false_eq_true, if_false, h1, h3, Option.map_some], ?_, ?_⟩
    · unfold addEnd; simp only; split <;> simp
      rintro rfl
      simp_all
    · refine unquote_order (by omega) _ 0 0 (Nat.le_refl _) ?_
      unfold addEnd
      simp only [Bool.false_eq_true, false_and, if_false]
      split
      · simp only [WOrd, List.map_cons, List.map_nil]
        rw [mkWord_range (by omega) (by omega)]
        exact ⟨.inl (Nat.zero_le _), hc, True.intro⟩
      · exact h2
  · have hf := fun r hr => commandWords_order lookup enh depr buffer cursor hc hb r hr
    obtain ⟨ws, h1, h2⟩ := allWords_order hf qs 0 hq3
    obtain ⟨ls, h3, -⟩ := hf _ (Spec.Ordered.last qs 0 hq3 hq2)
    obtain ⟨ha, w, hw, he⟩ := addEnd_order (first := decide (ls = [])) (by omega) (mergeDots_order (translate := translate) (by omega) h2)
    refine ⟨(addEnd buffer cursor true (ls = []) (mergeDots buffer translate ws)).map (unquote buffer), unquote buffer w,
      by simp only [collect, hq1, Option.bind_some, if_true, h1, h3, Option.map_some], unquote_order (by omega) _ 0 0 (Nat.le_refl _) ha, by simp [hw], ?_⟩
    rcases unquote_range buffer w (by omega) with hr | ⟨hl, -, hqt, hr | ⟨hl2, hr, h34⟩⟩
    · simp only [Word.range, Prod.mk.injEq] at hr; exact .inl (by omega)
    · simp only [Word.range, Prod.mk.injEq] at hr; exact .inl (by omega)
    · simp only [Word.range, Prod.mk.injEq] at hr
      rw [he] at h34
      exact .inr ⟨hqt, by omega, h34⟩

/-- Without a plus sign after a space the words do not overlap. -/
theorem C15_no_overlap (lookup : Lookup) (enh : Bool) (depr : List Nat → Bool) (translate : Nat) (buffer : List Nat) (cursor : Nat)
    (hb : buffer.length < 65536) (hc : cursor ≤ buffer.length) (hp : ¬ [32, 43] <:+: buffer) :
    (∃ ws, collect lookup enh depr translate buffer cursor false = some ws ∧ Ordered buffer.length 0 (ws.map fun w => (w.offset, w.length))) ∧
    ∃ ws, collect lookup enh depr translate buffer cursor true = some ws ∧ Ordered cursor 0 (ws.map fun w => (w.offset, w.length)) := by
  obtain ⟨⟨ws, h1, -, h2⟩, vs, w, h3, h4, -⟩ := C15_words lookup enh depr translate buffer cursor hb hc
  exact ⟨⟨ws, h1, h2.ordered (no_plus hp)⟩, vs, h3, h4.ordered (no_plus hp)⟩

example : ¬ [32, 43] <:+: str "copy a+b c" := by decide +kernel

/-- The words (offsets and lengths) and what they are. -/
def wordsOf (line : String) (cursor : Nat) (stop : Bool) : Option (List (Nat × Nat)) :=
  (collect (fun w => if w = str "al" then some (str "dir") else none) true (fun _ => false) 0 (str line) cursor stop).map
    (·.map fun w => (w.offset, w.length))

/-- A line with quotes, a flag with a value, and a redirection; with an alias; with the cursor after a closing quote;
after a space; at the start of an empty line. -/
example : (str "copy \"a b\" /x:y >out z ").length = 23 ∧
    wordsOf "copy \"a b\" /x:y >out z " 23 true = some [(0, 4), (6, 3), (11, 3), (14, 1), (17, 3), (21, 1), (23, 0)] ∧
    wordsOf "al /x==& dir" 0 false = some [(0, 2), (3, 4), (7, 0), (9, 3)] ∧
    wordsOf "dir \"a b\"" 9 true = some [(0, 3), (5, 3)] ∧
    wordsOf "dir " 4 true = some [(0, 3), (4, 0)] ∧
    wordsOf "" 0 true = some [(0, 0)] := by
  decide +kernel

/-- Overlapping words. -/
theorem C15_overlap : wordsOf " +/b" 4 true = some [(1, 1), (1, 3)] := by decide +kernel

/-- The delimiter of a word is kept in one byte, and the value 255 means that there are no more words: words after a
character like U+4EFF are lost. -/
theorem C15_words_lost :
    ((collect (fun _ => none) true (fun _ => false) 0 (flat (str "echo>" ++ 0x4EFF :: str " abc")) 0 false).map
      (·.map fun w => (w.offset, w.length))) = some [(0, 0)] ∧
    ((collect (fun _ => none) true (fun _ => false) 0 (flat (str "echo>" ++ 0x4EFE :: str " abc")) 0 false).map
      (·.map fun w => (w.offset, w.length))) = some [(0, 4), (5, 3), (9, 3)] := by
  decide +kernel

end Clink.Tokens
