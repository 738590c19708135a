import Verif.Model.LineQueue
import Verif.Spec.LineQueue
import Verif.Proof.DoskeyArgs

namespace Clink.LineQueue

open Utf (specUtf8 specUtf16 IsText toUtf8 toUtf16)
open Doskey (Lookup flat_append flat_cons flat_nil spec_ascii flat_ne_nil)
open Doskey.Spec (flat)
open Spec

theorem last_ex {l : List Nat} (h : l ≠ []) : ∃ x, l.getLast? = some x := ⟨l.getLast h, List.getLast?_eq_some_getLast h⟩

theorem spec8_last (c : Nat) (h : c < 0x110000) : (specUtf8 c).getLast? = some 10 ↔ c = 10 := by
  unfold specUtf8
  split
  · simp
  · split
    · simp; omega
    · split
      · simp; omega
      · simp; omega

theorem spec8_cr {c : Nat} (h : c < 0x110000) (h1 : c ≠ 13) (h2 : c ≠ 10) : ∃ l d, specUtf8 c = l ++ [d] ∧ d ≠ 13 ∧ d ≠ 10 := by
  unfold specUtf8
  split
  · exact ⟨[], c, rfl, h1, h2⟩
  · split
    · exact ⟨[_], _, rfl, by omega, by omega⟩
    · split
      · exact ⟨[_, _], _, rfl, by omega, by omega⟩
      · exact ⟨[_, _, _], _, rfl, by omega, by omega⟩

theorem flat_last {cs : List Nat} (h : ∀ c ∈ cs, IsText c) : (flat cs).getLast? = some 10 ↔ cs.getLast? = some 10 := by
  cases hcs : cs.reverse with
  | nil => simp at hcs; subst hcs; simp [flat]
  | cons c l =>
    have e : cs = l.reverse ++ [c] := by simpa using congrArg List.reverse hcs
    have hc := h c (by simp [e])
    rw [e, flat_append, flat_cons, flat_nil, List.append_nil, List.getLast?_append, List.getLast?_append]
    have hne := Utf.specUtf8_ne_nil c
    obtain ⟨x, hx⟩ := last_ex hne
    have := spec8_last c hc.2.1
    rw [hx] at this ⊢
    simpa using this

/-- The text without line ending. -/
theorem strip_spec (l : List Nat) : Stripped l (strip l) := by
  unfold strip Stripped
  refine ⟨(l.reverse.takeWhile fun c => c == 13 || c == 10).reverse, ?_, ?_, ?_⟩
  · rw [← List.reverse_append, List.takeWhile_append_dropWhile, List.reverse_reverse]
  · intro c hc
    have := List.all_eq_true.1 List.all_takeWhile c (List.mem_reverse.1 hc)
    simpa using this
  · intro c hc
    rw [List.getLast?_reverse] at hc
    generalize hr : l.reverse = r at hc
    clear hr
    induction r with
    | nil => simp at hc
    | cons d r ih =>
      rw [List.dropWhile_cons] at hc
      split at hc
      · exact ih hc
      · rename_i h
        simp at hc
        subst hc
        simpa using h

theorem strip_append (a e : List Nat) (he : ∀ c ∈ e, c = 13 ∨ c = 10) : strip (a ++ e) = strip a := by
  unfold strip
  rw [List.reverse_append, List.dropWhile_append_of_pos]
  intro c hc
  simpa using he c (List.mem_reverse.1 hc)

theorem strip_keep {a : List Nat} (h : ∀ c, a.getLast? = some c → c ≠ 13 ∧ c ≠ 10) : strip a = a := by
  unfold strip
  cases hr : a.reverse with
  | nil => simp at hr; simp [hr]
  | cons c l =>
    have e : a = l.reverse ++ [c] := by simpa using congrArg List.reverse hr
    have := h c (by simp [e])
    rw [List.dropWhile_cons, if_neg (by simpa using this), ← hr, List.reverse_reverse]

theorem flat_ascii : ∀ {l : List Nat}, (∀ c ∈ l, c < 128) → flat l = l
  | [], _ => rfl
  | c :: l, h => by
    rw [flat_cons, spec_ascii (h c (by simp)), flat_ascii fun d hd => h d (List.mem_cons_of_mem _ hd)]; rfl

theorem strip_flat {cs s : List Nat} (h : ∀ c ∈ cs, c < 0x110000) (hs : Stripped cs s) : strip (flat cs) = flat s := by
  obtain ⟨e, rfl, he, hl⟩ := hs
  rw [flat_append, flat_ascii (l := e) fun c hc => by have := he c hc; omega, strip_append _ _ he]
  apply strip_keep
  intro c hc
  cases hr : s.reverse with
  | nil => simp at hr; subst hr; simp [flat] at hc
  | cons d l =>
    have e' : s = l.reverse ++ [d] := by simpa using congrArg List.reverse hr
    obtain ⟨h1, h2⟩ := hl d (by simp [e'])
    obtain ⟨x, y, hxy, hy⟩ := spec8_cr (h d (by simp [e'])) h1 h2
    rw [e', flat_append, flat_cons, flat_nil, List.append_nil, hxy, ← List.append_assoc] at hc
    simp at hc
    exact hc ▸ hy

theorem crlf_flat {cs s : List Nat} (h : ∀ c ∈ cs, c < 0x110000) (hs : Stripped cs s) : crlf (flat cs) = flat (s ++ [13, 10]) := by
  unfold crlf
  rw [strip_flat h hs, flat_append]; rfl

/-! The queue and its specification. -/

/-- Text to be delivered: characters, the first of which may be half of a pair. -/
def Codes (cs : List Nat) : Prop := ∃ h d, cs = h ++ d ∧ (∀ c ∈ d, IsText c) ∧ (h = [] ∨ ∃ u, h = [u] ∧ 0xDC00 ≤ u ∧ u ≤ 0xDFFF)

structure Rel (l : Line) (i : Item) : Prop where
  ne : i.codes ≠ []
  tne : l.text ≠ []
  last : l.text.getLast? = some 10 ↔ i.codes.getLast? = some 10
  hide : l.flags.hide = i.hide
  show_ : l.flags.show_ = i.show_
  nodoskey : l.flags.nodoskey = i.nodoskey
  edit : l.flags.edit = false
  special : i.hide = true ∨ i.show_ = true ∨ i.nodoskey = true
  whole : l.cursor = 0 → i.whole = true ∧ l.wide = [] ∧ l.text = flat i.codes ∧ ∀ c ∈ i.codes, IsText c
  part : l.cursor ≠ 0 → i.whole = false ∧ l.cursor < l.wide.length ∧ l.wide.drop l.cursor = units i.codes ∧ Codes i.codes

theorem units_append (a b : List Nat) : units (a ++ b) = units a ++ units b := by simp [units]

theorem utf16_flat {cs : List Nat} (h : ∀ c ∈ cs, IsText c) : (toUtf16 none (flat cs)).out = units cs := by
  rw [Utf.toUtf16_none, flat, ← List.append_nil (cs.flatMap specUtf8), Utf.cps8_flat cs h, Utf.cps8_nil, List.append_nil]
  exact Utf.flatMap_congr' cs fun c hc => Utf.enc16_eq_spec c (h c hc).2.1

theorem utf8_units {cs : List Nat} (h : ∀ c ∈ cs, IsText c) : (toUtf8 none (units cs)).out = flat cs := by
  rw [Utf.toUtf8_none, units, ← List.append_nil (cs.flatMap specUtf16), Utf.cps16_flat cs h, Utf.cps16_nil, List.append_nil]
  exact Utf.flatMap_congr' cs fun c hc => Utf.enc8_eq_spec c (h c hc).2.1

theorem readable_text {cs : List Nat} (h : ∀ c ∈ cs, IsText c) : cs.map readable = cs := by
  induction cs with
  | nil => rfl
  | cons c cs ih =>
    have := (h c (by simp)).2.2
    rw [List.map_cons, ih fun d hd => h d (List.mem_cons_of_mem _ hd), readable, if_neg this]

theorem utf8_codes {cs : List Nat} (h : Codes cs) : (toUtf8 none (units cs)).out = flat (cs.map readable) := by
  obtain ⟨hd, d, rfl, ht, rfl | ⟨u, rfl, h1, h2⟩⟩ := h
  · rw [List.nil_append, utf8_units ht, readable_text ht]
  · have hu : units ([u] ++ d) = u :: units d := by
      simp only [units, specUtf16, List.cons_append, List.nil_append, List.flatMap_cons]
      rw [if_pos (by omega)]; rfl
    have hm : (([u] ++ d).map readable) = 0xFFFD :: d := by
      rw [List.map_append, readable_text ht]; simp [readable]; omega
    rw [hu, hm, Utf.toUtf8_none, Utf.cps16, dif_pos (by simp [Utf.more]; omega)]
    have hmask := Utf.surr_mask u (by omega)
    have hn : Utf.next16 (u :: units d) = (0xFFFD, units d) := by
      unfold Utf.next16
      simp only [hmask]
      rw [if_neg (by omega), if_neg (by omega), if_pos (by omega)]
    simp only [hn]
    rw [if_neg (by omega), List.flatMap_cons, ← Utf.toUtf8_none, utf8_units ht, flat_cons]
    rfl

theorem Codes.lt {cs : List Nat} (h : Codes cs) : ∀ c ∈ cs, c < 0x110000 := by
  obtain ⟨hd, d, rfl, ht, h⟩ := h
  intro c hc
  rcases List.mem_append.1 hc with hc | hc
  · rcases h with rfl | ⟨u, rfl, h1, h2⟩
    · simp at hc
    · simp at hc; omega
  · exact (ht c hc).2.1

theorem codes_text {cs : List Nat} (h : ∀ c ∈ cs, IsText c) : Codes cs := ⟨[], cs, rfl, h, .inl rfl⟩

theorem Rel.codes {l : Line} {i : Item} (h : Rel l i) : Codes i.codes := by
  by_cases hc : l.cursor = 0
  · exact codes_text (h.whole hc).2.2.2
  · exact (h.part hc).2.2.2

theorem Rel.unfinished {l : Line} {i : Item} (h : Rel l i) : unfinished l.text = true ↔ ¬ i.complete := by
  unfold LineQueue.unfinished Item.complete
  have := h.last
  simp [h.tne, h.ne, this]

theorem units_ne {cs : List Nat} (h : cs ≠ []) : units cs ≠ [] := by
  cases cs with
  | nil => exact absurd rfl h
  | cons c cs => simp [units, Utf.specUtf16_ne_nil]

theorem back_rel {l : Line} {i : Item} (h : Rel l i) {t : List Nat} (ht : ∀ c ∈ t, IsText c) (hne : t ≠ []) :
    Rel { l with text := l.text ++ flat t, wide := if l.cursor > 0 then l.wide ++ (toUtf16 none (flat t)).out else l.wide }
      { i with codes := i.codes ++ t } := by
  have hl : (flat t).getLast? = some 10 ↔ t.getLast? = some 10 := flat_last ht
  refine ⟨by simp [h.ne], by simp [h.tne], ?_, h.hide, h.show_, h.nodoskey, h.edit, h.special, ?_, ?_⟩
  · simp only [List.getLast?_append]
    obtain ⟨x, hx⟩ := last_ex (flat_ne_nil hne)
    obtain ⟨y, hy⟩ := last_ex hne
    rw [hx, hy] at hl ⊢
    simpa using hl
  · intro hc
    obtain ⟨h1, h2, h3, h4⟩ := h.whole hc
    have hc' : l.cursor = 0 := hc
    refine ⟨h1, by simp [hc', h2], by simp [h3, flat_append], ?_⟩
    intro c hcm
    rcases List.mem_append.1 hcm with h | h
    · exact h4 c h
    · exact ht c h
  · intro hc
    obtain ⟨h1, h2, h3, h4⟩ := h.part hc
    have hc' : l.cursor > 0 := Nat.pos_of_ne_zero hc
    simp only [if_pos hc', utf16_flat ht]
    refine ⟨h1, by simp; omega, by rw [List.drop_append_of_le_length (by omega), h3, units_append], ?_⟩
    obtain ⟨hd, d, e, ht', hh⟩ := h4
    refine ⟨hd, d ++ t, by simp [e], ?_, hh⟩
    intro c hcm
    rcases List.mem_append.1 hcm with h | h
    · exact ht' c h
    · exact ht c h

theorem new_rel {t : List Nat} (ht : ∀ c ∈ t, IsText c) (hne : t ≠ []) {f : Flags} (he : f.edit = false)
    (hs : f.hide = true ∨ f.show_ = true ∨ f.nodoskey = true) :
    Rel { text := flat t, flags := f } ⟨t, true, f.hide, f.show_, f.nodoskey⟩ :=
  ⟨hne, flat_ne_nil hne, flat_last ht, rfl, rfl, rfl, he, hs, fun _ => ⟨rfl, rfl, rfl, ht⟩, fun h => absurd rfl h⟩

inductive RelQ : List Line → List Item → Prop
  | nil : RelQ [] []
  | cons {l i q is} : Rel l i → RelQ q is → RelQ (l :: q) (i :: is)

theorem RelQ.snoc {q is l i} (h : RelQ q is) (hl : Rel l i) : RelQ (q ++ [l]) (is ++ [i]) := by
  induction h with
  | nil => exact .cons hl .nil
  | cons h _ ih => exact .cons h ih

theorem RelQ.append {q is q' is'} (h : RelQ q is) (h' : RelQ q' is') : RelQ (q ++ q') (is ++ is') := by
  induction h with
  | nil => exact h'
  | cons h _ ih => exact .cons h ih

theorem RelQ.last {q is} (h : RelQ q is) : (q = [] ∧ is = []) ∨ ∃ q' is' l i, q = q' ++ [l] ∧ is = is' ++ [i] ∧ RelQ q' is' ∧ Rel l i := by
  induction h with
  | nil => exact .inl ⟨rfl, rfl⟩
  | @cons l i q is hl h ih =>
    right
    rcases ih with ⟨rfl, rfl⟩ | ⟨q', is', l', i', rfl, rfl, h', hl'⟩
    · exact ⟨[], [], l, i, rfl, rfl, .nil, hl⟩
    · exact ⟨l :: q', i :: is', l', i', rfl, rfl, .cons hl h', hl'⟩

end Clink.LineQueue
