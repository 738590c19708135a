import Verif.Proof.Ecma48

/-!
C16: reading terminal output with `ecma48_iter`.
-/

namespace Clink.Ecma48

open Utf (IsText)
open Doskey.Spec (flat)
open Ecma48.Spec

/-- Reading any bytes in any state that reading can leave behind ends, and leaves such a state. -/
theorem C16_terminates (s : State) (l : List Nat) (h : s.st ≠ .char) : ∃ ps s', walk s l = some (ps, s') ∧ s'.st ≠ .char := by
  obtain ⟨r, hr⟩ := walkFrom_some s 0 l h
  exact ⟨r.1, r.2, hr, walkFrom_st hr⟩

example : ({} : State).st ≠ .char ∧ ({ st := .csiP } : State).st ≠ .char := by decide

/-- The pieces of a text: in order, each a complete code or a run of text; left out are only codes that are broken off
and an incomplete code at the end.  See `Spec.Tiles`. -/
theorem C16_tiles (cs : List Nat) (hcs : ∀ c ∈ cs, IsText c) (hl : (flat cs).length ≤ 65471) :
    ∃ ps s left, walk {} (flat cs) = some (ps, s) ∧ Tiles left (chars cs) (ps.map view) := by
  obtain ⟨ps, s', n', left, h1, h2, -⟩ := walk_tiles {} 0 (flat cs) [] (chars cs) [] (reads_chars cs hcs)
    ⟨⟨.unknown (.inl rfl), by simp [bytes]⟩, .inl (by simp [bytes])⟩ (by simp) (by rw [bytes_chars]; simpa [bytes, bufferLimit] using hl)
  exact ⟨ps, s', left, h1, h2⟩

/-- The same for any bytes, with the characters as the iterator reads them. -/
theorem C16_tiles_bytes (l : List Nat) (hl : l.length ≤ 65471) :
    ∃ ch rest ps s left, Reads l ch rest ∧ l = bytes ch ++ rest ∧ walk {} l = some (ps, s) ∧ Tiles left ch (ps.map view) := by
  obtain ⟨ch, rest, hr⟩ := reads_exists l
  have hs := hr.split
  obtain ⟨ps, s', n', left, h1, h2, -⟩ := walk_tiles {} 0 l [] ch rest hr ⟨⟨.unknown (.inl rfl), by simp [bytes]⟩, .inl (by simp [bytes])⟩ (by simp) (by
    have := congrArg List.length hs
    simp [bytes, bufferLimit] at this ⊢; omega)
  exact ⟨ch, rest, ps, s', left, hr, hs, h1, h2⟩

/-- Printable text is one piece. -/
theorem C16_verbatim (cs : List Nat) (hcs : ∀ c ∈ cs, IsText c ∧ Printable c) (hl : (flat cs).length ≤ 65471) (hne : cs ≠ []) :
    ∃ x s, walk {} (flat cs) = some ([⟨flat cs, some .chars, x⟩], s) := by
  obtain ⟨ps, s, left, h1, h2⟩ := C16_tiles cs (fun c h => (hcs c h).1) hl
  obtain ⟨x, hx⟩ := tiles_printable h2 (by rw [codes_chars]; exact fun c h => (hcs c h).2) (by simpa [chars] using hne)
  rw [bytes_chars] at hx
  match ps, hx with
  | [], hx => simp at hx
  | _ :: _ :: _, hx => simp at hx
  | [p], hx =>
    simp only [List.map_cons, List.map_nil, List.cons.injEq, and_true, view, Prod.mk.injEq] at hx
    refine ⟨p.code, s, ?_⟩
    rw [h1]
    obtain ⟨t, k, y⟩ := p
    obtain ⟨rfl, hk, -⟩ := hx
    cases k with
    | none => simp at hk
    | some k => cases k <;> simp_all [kind]

/-- Several texts read with the same state: a code may go on in the next text.  See `Spec.Chunks`. -/
theorem C16_chunks (css : List (List Nat)) (hcs : ∀ cs ∈ css, ∀ c ∈ cs, IsText c) (hl : (css.map flat).flatten.length ≤ 65471) :
    ∃ ps s, walkAll {} (css.map flat) = some (ps, s) ∧ Chunks [] (css.map chars) (ps.map view) :=
  walkAll_chunks css {} 0 [] hcs ⟨.unknown (.inl rfl), by simp [bytes]⟩ (by simp) (by simp) (by simpa [bytes, bufferLimit] using hl)

def str (s : String) : List Nat := s.toList.map Char.toNat

/-- What is read. -/
def shown (l : List Nat) : Option (List (List Nat × Option Typ × Nat)) := (walk {} l).map fun r => r.1.map fun p => (p.text, p.typ, p.code)

/-- A line with a colour, a title, a bell, and a broken code. -/
def sample : List Nat := str "a" ++ 27 :: str "[1;2m" ++ 27 :: str "]0;t" ++ 7 :: str "b" ++ [7] ++ 27 :: str "[1" ++ 8 :: 233 :: 27 :: str "[3"

example : (∀ c ∈ sample, IsText c) ∧ (flat sample).length ≤ 65471 ∧ shown (flat sample) = some [
    (str "a", some .chars, 0), (27 :: str "[1;2m", some .c1, 0x5b), (27 :: str "]0;t" ++ [7], some .c1, 0x5d), (str "b", some .chars, 0x5d),
    ([7], some .c0, 7), ([8], some .c0, 8), (flat [233], some .chars, 8)] := by
  decide +kernel

example : (∀ c ∈ str "hello world" ++ [233, 0x1F600], IsText c ∧ Printable c) ∧ (flat (str "hello world" ++ [233, 0x1F600])).length ≤ 65471 := by
  unfold Printable; decide +kernel

/-- The tests of the project for the iterator, terminal/test/ecma48.cpp, with the values that are required there (the
project's tests for parameters are about `decode_csi`). -/
example :
    shown (str "abc123") = some [(str "abc123", some .chars, 0)] ∧
    (shown [1, 32, 0x10, 0x1f]).map (·.map fun p => (p.1, p.2.1)) = some [([1], some .c0), ([32], some .chars), ([0x10], some .c0), ([0x1f], some .c0)] ∧
    shown [27, 0x40, 27, 0x51, 27, 0x5c] = some [([27, 0x40], some .c1, 0x40), ([27, 0x51], some .c1, 0x51), ([27, 0x5c], some .c1, 0x5c)] ∧
    shown [27, 0x60, 27, 0x7f] = some [([27, 0x60], some .icf, 0x60), ([27, 0x7f], some .icf, 0x7f)] ∧
    (shown [27, 0x5b, 0x40, 0xc2, 0x9b, 0x20, 0x7e]).map (·.map fun p => (p.1.length, p.2.1)) = some [(3, some .c1), (4, some .c1)] := by
  refine ⟨?_, ?_, ?_, ?_, ?_⟩ <;> decide +kernel

example :
    ((shown (27 :: str "[1;2" ++ [1])).map fun l => l.head?) = some (some ([1], some .c0, 1)) ∧
    (shown (32 :: 27 :: str "[1;2x@@@@")).map (·.map fun p => (p.1.length, p.2.1)) = some [(1, some .chars), (6, some .c1), (4, some .chars)] := by
  decide +kernel

example :
    ([[27, 0x5c], [0xc2, 0x9c]].all fun t => [[27, 0x5f], [0xc2, 0x9f], [27, 0x50], [0xc2, 0x90], [27, 0x5d], [0xc2, 0x9d], [27, 0x5e], [0xc2, 0x9e],
      [27, 0x58], [0xc2, 0x98]].all fun a => decide ((shown (a ++ str "xyz" ++ t)).map (·.map (·.1)) = some [a ++ str "xyz" ++ t])) = true := by
  decide +kernel

example :
    shown [0xc2, 0x9c] = some [([0xc2, 0x9c], some .c1, 0x5c)] ∧
    (shown (str "abc " ++ 27 :: str "]0;" ++ 27 :: str "]9;8;\"USERNAME\"" ++ 27 :: str "\\@" ++ 27 :: str "]9;8;\"COMPUTERNAME\"" ++
      27 :: str "\\ /CMD 10.0/" ++ 27 :: str "\\ xyz")).map (·.map fun p => (p.1.length, p.2.1)) = some [(4, some .chars), (58, some .c1), (4, some .chars)] := by
  decide +kernel

/-- "ecma48 c1 csi stream" in the same file. -/
example : ∀ i ∈ List.range 7, (walkAll {} [(27 :: str "[1;21m").take i, (27 :: str "[1;21m").drop i]).map (fun r => r.1.map fun p => (p.text, p.typ)) =
    some [(27 :: str "[1;21m", some .c1)] := by
  decide +kernel

/-- A title and a colour that are continued, where the claim is not void. -/
example : (∀ cs ∈ [str "a" ++ 27 :: str "]0;x", str "y" ++ 7 :: str "z" ++ [27], str "[m"], ∀ c ∈ cs, IsText c) ∧
    Resumes [] (str "a" ++ 27 :: str "]0;x") ∧ Resumes (27 :: str "]0;x") (str "y" ++ 7 :: str "z" ++ [27]) ∧ Resumes [27] (str "[m") ∧
    (walkAll {} [str "a" ++ 27 :: str "]0;x", str "y" ++ 7 :: str "z" ++ [27], str "[m"]).map (fun r => r.1.map fun p => (p.text, p.typ)) =
      some [(str "a", some .chars), (27 :: str "]0;xy" ++ [7], some .c1), (str "z", some .chars), (27 :: str "[m", some .c1)] := by
  refine ⟨by decide +kernel, ⟨by decide +kernel, by decide⟩, ⟨by decide +kernel, by decide⟩, ⟨by decide +kernel, ?_⟩, by decide +kernel⟩
  intro _ c hc
  simp [str] at hc
  omega

/-! Where the code departs from the plain claim. -/

/-- The first part of a code that is broken off is in no piece, so the pieces do not cover the text. -/
theorem C16_not_covered : shown (str "a" ++ 27 :: str "[12" ++ [1] ++ str "b") = some [(str "a", some .chars, 0), ([1], some .c0, 1), (str "b", some .chars, 1)] := by
  decide +kernel

/-- A run of text of 65536 bytes (or a multiple) is taken for the end of the text: it and everything behind it is lost. -/
theorem C16_run_lost (c : Nat) (cs ds : List Nat) (hcs : ∀ x ∈ c :: cs ++ ds, IsText x) (hc : Printable c) (hr : ∀ x ∈ cs, 0x20 ≤ x) (hd : Stop ds)
    (hl : (flat (c :: cs)).length % 65536 = 0) : ∃ s, walk {} (flat (c :: cs ++ ds)) = some ([], s) :=
  run_lost c cs ds hcs hc hr hd hl

example : ∃ c cs ds, (∀ x ∈ c :: cs ++ ds, IsText x) ∧ Printable c ∧ (∀ x ∈ cs, 0x20 ≤ x) ∧ Stop ds ∧ (flat (c :: cs)).length % 65536 = 0 ∧ ds ≠ [] := by
  have h : ∀ n, (flat (List.replicate n 97)).length = n := by
    intro n
    induction n with
    | zero => rfl
    | succ n ih => rw [List.replicate_succ]; simp only [flat, List.flatMap_cons, List.length_append] at *; rw [ih, show Utf.specUtf8 97 = [97] from rfl]; simp; omega
  refine ⟨97, List.replicate 65535 97, [10, 98], ?_, by unfold Printable; omega, ?_, ?_, ?_, by simp⟩
  · intro x hx
    simp only [List.cons_append, List.mem_cons, List.mem_append, List.mem_replicate] at hx
    have : x = 97 ∨ x = 10 ∨ x = 98 := by simp at hx; omega
    rcases this with rfl | rfl | rfl <;> decide
  · intro x hx
    have := (List.mem_replicate.1 hx).2
    omega
  · intro c hc; simp at hc; omega
  · rw [← List.replicate_succ, h]

/-- A text that ends with an escape character: it is lost when the next text does not continue it. -/
theorem C16_escape_lost : (walkAll {} [str "a" ++ [27], str " b"]).map (fun r => r.1.map (·.text)) = some [str "a", str " b"] ∧
    (walkAll {} [str "a" ++ [27] ++ str " b"]).map (fun r => r.1.map (·.text)) = some [str "a", 27 :: str " b"] := by
  decide +kernel

/-- Strings inside strings are forgotten at the end of a text, so the bell that ends the inner string ends the outer. -/
theorem C16_nesting_lost :
    (walkAll {} [27 :: str "]0;" ++ 27 :: str "]9;8;x", [7] ++ str "y" ++ [7]]).map (fun r => r.1.map (·.typ)) = some [some .c1, some .chars, some .c0] ∧
    (walkAll {} [27 :: str "]0;" ++ 27 :: str "]9;8;x" ++ ([7] ++ str "y" ++ [7])]).map (fun r => r.1.map (·.typ)) = some [some .c1] := by
  decide +kernel

/-- An escape character that starts nothing and the text behind it have the type of the code before, and at the start
no defined type. -/
theorem C16_stale_type : shown (27 :: str "1text") = some [(27 :: str "1text", none, 0)] ∧
    shown (7 :: 27 :: str "1text") = some [([7], some .c0, 7), (27 :: str "1text", some .c0, 7)] := by
  decide +kernel

end Clink.Ecma48
