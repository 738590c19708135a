import Verif.Props.Tokens
import Verif.Proof.LineWordsUnique

/-!
C15, continued: which words are found.  `Spec/Words.lean` and `Spec/LineWords.lean` say which these are.
-/

namespace Clink.Tokens

open Utf (more IsText)
open Doskey (Lookup)
open Doskey.Spec (flat)
open Tokens.Spec

/-- The pieces of a command are those that the grammar `Spec.WordsOf` has for its text. -/
theorem C15_pieces (text : List Nat) (ht : ∀ c ∈ text, IsText c) (first : Bool) (after : Nat) (xs : List Tok) :
    tokens (flat text).length after (.start {} (flat text) first) = some xs ↔
      ∃ ts, WordsOf after (flat text).length first false first text ts ∧ xs = ts.map fun x => ⟨x.1, x.2.1, x.2.2.1, x.2.2.2⟩ := by
  obtain ⟨ts, h1, h2⟩ := start_words (first := first) (cmd := {}) ht rfl after
  rw [h2]
  constructor
  · intro h
    exact ⟨ts, h1, (Option.some.inj h).symm⟩
  · rintro ⟨ts', h3, rfl⟩
    rw [h1.unique h3]

theorem bounds_text (lookup : Lookup) (enh : Bool) (hl : AsciiNames lookup) (cs : List Nat) (hcs : ∀ c ∈ cs, IsText c) :
    ∃ rs, rs ≠ [] ∧ (∀ cursor, bounds lookup enh (flat cs) cursor false = some rs) ∧
      (∀ rest, bounds lookup enh (flat cs ++ rest) (flat cs).length true = some rs) ∧
      ∀ rest, ∀ r ∈ rs, r.1 + r.2 ≤ (flat cs).length ∧ ∃ cmd, (∀ c ∈ cmd, IsText c) ∧ Spec.slice (flat cs ++ rest) r.1 r.2 = flat cmd := by
  by_cases hne : cs = []
  · subst hne
    refine ⟨[(0, 0)], by simp, fun cursor => ?_, fun rest => ?_, fun rest r hr => ?_⟩
    · unfold bounds
      simp only [show (flat [] : List Nat) = [] from rfl, Bool.false_eq_true, if_false]
      rw [show ranges lookup enh [] [] = some [] by rw [ranges]; simp [more]]
      rfl
    · unfold bounds
      simp only [show (flat [] : List Nat) = [] from rfl, List.nil_append, List.length_nil, List.take_zero, if_true]
      rw [show ranges lookup enh [] [] = some [] by rw [ranges]; simp [more]]
      rfl
    · simp only [List.mem_cons, List.not_mem_nil, or_false] at hr
      subst hr
      exact ⟨Nat.zero_le _, [], by simp, rfl⟩
  · obtain ⟨rs, h1, h2, h3⟩ := C14_split lookup enh hl cs hcs hne
    refine ⟨rs, ?_, h2, h3, split_ranges h1 hcs⟩
    rintro rfl
    cases h1
    exact hne rfl

/-- The words of a line of well-formed text are exactly those that `Spec.LineWords` has for its commands, without the
quotes around them.  If there is none, an empty one is added. -/
theorem C15_line (lookup : Lookup) (enh : Bool) (depr : List Nat → Bool) (translate : Nat) (hl : AsciiNames lookup) (cs : List Nat)
    (hcs : ∀ c ∈ cs, IsText c) (hlen : (flat cs).length < 65536) (cursor : Nat) (hc : cursor ≤ (flat cs).length) (xs : List Word) :
    collect lookup enh depr translate (flat cs) cursor false = some xs ↔
      ∃ rs ls first es vs, bounds lookup enh (flat cs) cursor false = some rs ∧ LineWords lookup enh depr (flat cs) rs ls first ∧
        OrEmpty (flat cs) cursor first ls es ∧ AllUnquoted (flat cs) es vs ∧ xs = vs.map toWord := by
  obtain ⟨rs, hne, h1, -, h3⟩ := bounds_text lookup enh hl cs hcs
  have h3 := h3 []
  rw [List.append_nil] at h3
  obtain ⟨ls, first, es, vs, h4, h5, h6, h7⟩ := collect_line lookup enh depr translate hlen hc
    (fun b hb => flat_bytes hcs b (List.mem_of_mem_take hb)) (h1 cursor) hne h3
  rw [h7]
  constructor
  · intro h
    exact ⟨rs, ls, first, es, vs, h1 cursor, h4, h5, h6, (Option.some.inj h).symm⟩
  · rintro ⟨rs', ls', first', es', vs', g1, g2, g3, g4, rfl⟩
    rw [h1 cursor] at g1
    obtain rfl := Option.some.inj g1
    obtain ⟨rfl, rfl⟩ := h4.unique g2
    obtain rfl := h5.unique g3
    rw [h6.unique g4]

/-- The same for the text before the cursor, whatever follows it.  Here `.` or `..` and a slash are taken together if slashes
are translated, and an empty word is added if no word ends at the cursor. -/
theorem C15_cursor (lookup : Lookup) (enh : Bool) (depr : List Nat → Bool) (translate : Nat) (hl : AsciiNames lookup) (cs rest : List Nat)
    (hcs : ∀ c ∈ cs, IsText c) (hlen : (flat cs ++ rest).length < 65536) (xs : List Word) :
    collect lookup enh depr translate (flat cs ++ rest) (flat cs).length true = some xs ↔
      ∃ rs ls first ms es vs, bounds lookup enh (flat cs ++ rest) (flat cs).length true = some rs ∧
        LineWords lookup enh depr (flat cs ++ rest) rs ls first ∧ Merged (flat cs ++ rest) translate ls ms ∧
        AtCursor (flat cs ++ rest) (flat cs).length first ms es ∧ AllUnquoted (flat cs ++ rest) es vs ∧ xs = vs.map toWord := by
  obtain ⟨rs, hne, -, h2, h3⟩ := bounds_text lookup enh hl cs hcs
  obtain ⟨ls, first, ms, es, vs, h4, h8, h5, h6, h7⟩ := collect_cursor lookup enh depr translate (cursor := (flat cs).length) hlen (by simp)
    (fun b hb => flat_bytes hcs b (by rwa [List.take_left] at hb)) (h2 rest) hne (h3 rest)
  rw [h7]
  constructor
  · intro h
    exact ⟨rs, ls, first, ms, es, vs, h2 rest, h4, h8, h5, h6, (Option.some.inj h).symm⟩
  · rintro ⟨rs', ls', first', ms', es', vs', g1, g2, g3, g4, g5, rfl⟩
    rw [h2 rest] at g1
    obtain rfl := Option.some.inj g1
    obtain ⟨rfl, rfl⟩ := h4.unique g2
    obtain rfl := h8.unique g3
    obtain rfl := h5.unique g4
    rw [h6.unique g5]

/-- The words before the cursor at the end of the line: their text, whether they are commands, and their delimiter. -/
def shown (line : String) : Option (List (List Nat × Bool × Nat)) :=
  (collect (fun w => if w = str "al" then some (str "dir") else none) true (fun _ => false) 1 (str line) (str line).length true).map
    (·.map fun w => (((str line).drop w.offset).take w.length, w.command, w.delim))

def texts (line : String) (ws : List String) : Prop := (shown line).map (·.map (·.1)) = some (ws.map str)

instance (line : String) (ws : List String) : Decidable (texts line ws) := inferInstanceAs (Decidable (_ = _))

/-- Six of the cases in lib/test/word_collection.cpp. -/
example : texts ">ab^ cd jkl mno " ["ab^ cd", "jkl", "mno", ""] ∧ texts "^\"^\" jkl mno " ["^\"^\"", "jkl", "mno", ""] ∧
    texts "\"abc\" " ["abc", ""] ∧ texts "\"ab\"cd jkl mno " ["ab\"cd", "jkl", "mno", ""] ∧
    texts "abc\" jkl mno\" " ["abc\" jkl mno\"", ""] ∧ texts "foo ^ bar " ["foo", "bar", ""] := by
  decide +kernel

/-- The hypotheses are met by lines with aliases, quotes, redirections, flags with values, and words taken together. -/
def sample2 : List Nat := str "al \"a b\" >x /f:v -g=2 & ../" ++ [8364]

example : AsciiNames (fun w => if w = str "al" then some (str "dir") else none) ∧ (∀ c ∈ sample2, IsText c) ∧ (flat sample2 ++ [120]).length < 65536 ∧
    shown "al \"a b\" >x /f:v -g=2 & ../" = some [(str "al", true, 97), (str "a b", false, 32), (str "x", false, 32), (str "/f:", false, 58), (str "v", false, 32),
      (str "-g=", false, 61), (str "2", false, 0), (str "../", true, 47)] := by
  refine ⟨?_, by decide, by decide, by decide +kernel⟩
  intro w h
  by_cases hw : w = str "al"
  · subst hw; decide
  · simp [hw] at h

/-! Some consequences for particular lines. -/

/-- The name of a command of the interpreter ends at a dot, also after a digit. -/
theorem C15_builtin_digit : texts "echo.x" ["echo", ".x"] ∧ texts "5echo.x" ["5echo", ".x"] ∧ texts "55echo.x" ["55echo.x"] := by decide +kernel

/-- After a copied handle a word is found that is empty. -/
theorem C15_empty_words : texts "2>&1 /foo" ["", "/foo"] ∧ texts "foo 2>&1" ["foo", ""] ∧ texts "foo >x" ["foo", "x"] := by decide +kernel

/-- The delimiter of an alias is its own first character. -/
theorem C15_alias_delim : shown "al x" = some [(str "al", true, 97), (str "x", false, 0)] ∧
    shown "ax x" = some [(str "ax", true, 32), (str "x", false, 0)] := by decide +kernel

end Clink.Tokens
