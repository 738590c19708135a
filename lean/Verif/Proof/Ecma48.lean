import Verif.Model.Ecma48
import Verif.Spec.Ecma48
import Verif.Proof.Doskey

namespace Clink.Ecma48

open Utf (more IsText)
open Doskey.Spec (flat)
open Doskey (peek next next_lt next_le between between_append next_suffix)
open Ecma48.Spec

/-- The characters that an iterator reads, up to where it stops. -/
inductive Reads : List Nat → List Ch → List Nat → Prop
  | nil {l} : peek l = 0 → Reads l [] l
  | cons {l b ch rest} : peek l ≠ 0 → l = b ++ next l → Reads (next l) ch rest → Reads l ((peek l, b) :: ch) rest

theorem reads_exists (l : List Nat) : ∃ ch rest, Reads l ch rest := by
  induction hn : l.length using Nat.strongRecOn generalizing l with
  | _ n ih =>
    by_cases hp : peek l = 0
    · exact ⟨[], l, .nil hp⟩
    · obtain ⟨ch, rest, h⟩ := ih _ (by rw [← hn]; exact next_lt (more_of_peek hp)) (next l) rfl
      exact ⟨_, rest, .cons hp (between_append (next_suffix l)).symm h⟩

theorem Reads.split {l : List Nat} {ch : List Ch} {rest : List Nat} (h : Reads l ch rest) : l = bytes ch ++ rest := by
  induction h with
  | nil => rfl
  | @cons l b ch rest hp hl h ih =>
    rw [show bytes ((peek l, b) :: ch) = b ++ bytes ch from rfl, List.append_assoc, ← ih]; exact hl

theorem codes_append (a b : List Ch) : codes (a ++ b) = codes a ++ codes b := by simp [codes]
theorem bytes_append (a b : List Ch) : bytes (a ++ b) = bytes a ++ bytes b := by simp [bytes]

theorem loop_stop {copy : List Nat} {i : Iter} (h : peek i.iter = 0) : loop copy i = (decide (i.s.st = .char), i) := by
  rw [loop]; simp [h]

theorem loop_done {copy : List Nat} {i i' : Iter} {c : Nat} (hc : peek i.iter = c) (h : c ≠ 0) (hs : step i c = (true, i')) :
    loop copy i = (true, (keep copy i').1) := by
  rw [loop]; subst hc; simp [h, hs]

theorem loop_go {copy : List Nat} {i i' : Iter} {c : Nat} (hc : peek i.iter = c) (h : c ≠ 0) (hs : step i c = (false, i')) :
    loop copy i = loop (keep copy i').2 (keep copy i').1 := by
  rw [loop]; subst hc; simp [h, hs]

/-- Where the iterator can be after having read `u` of a code; `pk` is the next character. -/
inductive Reach (pk : Nat) : St → Nat → Option Typ → Nat → List Nat → Prop
  | unknown {n t c} : (n = 0 ∨ 0 < pk ∧ pk < 0x20 ∧ pk ≠ 27) → Reach pk .unknown n t c []
  | esc {t c} : Reach pk .esc 0 t c [27]
  | csiP {i ps} : Intro 0x5b i → (∀ c ∈ ps, Param c) → Reach pk .csiP 0 (some .c1) 0x5b (i ++ ps)
  | csiF {i ps is} : Intro 0x5b i → (∀ c ∈ ps, Param c) → (∀ c ∈ is, Middle c) → is ≠ [] → Reach pk .csiF 0 (some .c1) 0x5b (i ++ ps ++ is)
  | cmd {x i n b} : Intro x i → IsCmd x → Body n b → Reach pk .cmdStr n (some .c1) x (i ++ b)
  | cmdOpen {x i n b} : Intro x i → IsCmd x → Body n b → pk = 0x5d → Reach pk .cmdStr (n + 1) (some .c1) x (i ++ b ++ [27])
  | cmdClose {x i n b} : Intro x i → IsCmd x → Body (n + 1) b → pk = 0x5c → Reach pk .cmdStr n (some .c1) x (i ++ b ++ [27])
  | cmdEsc {x i n b} : Intro x i → IsCmd x → Body n b → pk ≠ 0x5d → (pk = 0x5c → n = 0) → Reach pk .escSt n (some .c1) x (i ++ b ++ [27])
  | sos {i b} : Intro 0x58 i → 27 ∉ b → 0x9c ∉ b → Reach pk .charStr 0 (some .c1) 0x58 (i ++ b)
  | sosEsc {i b} : Intro 0x58 i → 27 ∉ b → 0x9c ∉ b → Reach pk .escSt 0 (some .c1) 0x58 (i ++ b ++ [27])

/-- The state that belongs to the characters `cur` of a code. -/
structure Core (pk : Nat) (s : State) (nested : Nat) (cur : List Ch) : Prop where
  reach : Reach pk s.st nested s.typ s.code (codes cur)
  buffer : (if s.clear then [] else s.buffer) = bytes cur

/-- The same for the iterator, where the pointer to the start matters for text only. -/
structure Inv (i : Iter) (cur : List Ch) : Prop where
  core : Core (peek i.iter) i.s i.nested cur
  start : i.start = bytes cur ++ i.iter ∨ cur ≠ [] ∧ (codes cur = [27] → 0x40 ≤ peek i.iter ∧ peek i.iter ≤ 0x7f ∨ peek i.iter = 0)

def kind : Typ → Kind
  | .chars => .chars
  | .c0 => .c0
  | .c1 => .c1
  | .icf => .icf

/-- The text of a code that has been found. -/
def textOf (i : Iter) : List Nat := if i.s.st ≠ .char then i.s.buffer else between i.start i.iter

/-- What the loop does with characters: those that are dropped, those of the code, and those to come. -/
def Result (r : Bool × Iter) (all : List Ch) (rest : List Nat) : Prop :=
  ∃ d w ch, all = d ++ (w ++ ch) ∧ Dropped (codes d) (codes (w ++ ch)) ∧
    ((r.1 = true ∧ w ≠ [] ∧ Reads r.2.iter ch rest ∧ textOf r.2 = bytes w ∧ Tells (r.2.s.typ.map kind) r.2.s.code (codes w) (codes ch)) ∨
     (r.1 = false ∧ ch = [] ∧ r.2.iter = rest ∧ Core 0 r.2.s r.2.nested w))

theorem codes_snoc (cur : List Ch) (c : Nat) (b : List Nat) : codes (cur ++ [(c, b)]) = codes cur ++ [c] := by simp [codes]
theorem bytes_snoc (cur : List Ch) (c : Nat) (b : List Nat) : bytes (cur ++ [(c, b)]) = bytes cur ++ b := by simp [bytes]

theorem between_self (l : List Nat) : between l l = [] := by simp [between]
theorem between_mid (a b : List Nat) : between (a ++ b) b = a := by simp [between]

/-- Stepping over a character, not into text. -/
theorem keep_adv {i i' : Iter} {cur : List Ch} {b m : List Nat} (c : Nat)
    (h2 : (if i.s.clear then [] else i.s.buffer) = bytes cur) (hl : i.iter = b ++ m)
    (hi : i'.iter = m) (hb : i'.s.buffer = i.s.buffer) (hcl : i'.s.clear = i.s.clear)
    (hne : i'.s.st ≠ .char) (hlim : (bytes cur).length + b.length ≤ bufferLimit) :
    (keep i.iter i').2 = i'.iter ∧ (keep i.iter i').1 = { i' with s := { i'.s with clear := false, buffer := bytes (cur ++ [(c, b)]) } } := by
  refine ⟨by simp [keep, hne], ?_⟩
  unfold keep
  rw [if_pos hne, hb, hcl, hl, hi, between_mid]
  simp only [h2]
  rw [List.take_of_length_le (by simp; omega), bytes_snoc]

/-- The loop inside text. -/
theorem loop_char {l : List Nat} {ch : List Ch} {rest : List Nat} (h : Reads l ch rest) : ∀ (copy : List Nat) (i : Iter), i.iter = l → i.s.st = .char →
    ∃ r c', ch = r ++ c' ∧ (∀ x ∈ codes r, 0x20 ≤ x) ∧ Stop (codes c') ∧ (loop copy i).1 = true ∧ Reads (loop copy i).2.iter c' rest ∧
      l = bytes r ++ (loop copy i).2.iter ∧ (loop copy i).2.start = i.start ∧ (loop copy i).2.s.st = .char ∧
      (i.s.typ = some .chars → (loop copy i).2.s.typ = some .chars) := by
  induction h with
  | @nil l hp =>
    intro copy i hi hs
    rw [loop_stop (by rw [hi]; exact hp)]
    exact ⟨[], [], rfl, by simp [codes], by simp [Stop, codes], by simp [hs], by rw [hi]; exact .nil hp, by simp [hi, bytes], rfl, hs, id⟩
  | @cons l b ch rest hp hl h ih =>
    intro copy i hi hs
    by_cases hc : peek l ≤ 0x1f
    · have hst : step i (peek l) = (true, { i with s := { i.s with typ := some .chars } }) := by simp [step, hs, nextChar, hc]
      rw [loop_done (by rw [hi]) hp hst]
      have hk : keep copy { i with s := { i.s with typ := some .chars } } = ({ i with s := { i.s with typ := some .chars } }, copy) := by
        simp [keep, hs]
      rw [hk]
      refine ⟨[], _, rfl, by simp [codes], ?_, rfl, by simp only [hi]; exact .cons hp hl h, by simp [hi, bytes], rfl, hs, fun _ => rfl⟩
      intro c hcc; simp [codes] at hcc; omega
    · have hst : step i (peek l) = (false, i.adv) := by simp [step, hs, nextChar, hc]
      rw [loop_go (by rw [hi]) hp hst]
      have hk : keep copy i.adv = (i.adv, copy) := by simp [keep, Iter.adv, hs]
      rw [hk]
      obtain ⟨r, c', h1, h2, h3, h4, h5, h6, h7, h8, h9⟩ := ih copy i.adv (by simp [Iter.adv, hi]) (by simp [Iter.adv, hs])
      refine ⟨(peek l, b) :: r, c', by rw [h1]; rfl, ?_, h3, h4, h5, ?_, h7, h8, h9⟩
      · intro x hx
        simp only [codes, List.map_cons, List.mem_cons] at hx
        rcases hx with rfl | hx
        · omega
        · exact h2 x hx
      · rw [show bytes ((peek l, b) :: r) = b ++ bytes r from rfl, List.append_assoc, ← h6]; exact hl

/-- What is to be shown, for the characters to come. -/
def Goal (ch : List Ch) (rest : List Nat) : Prop :=
  ∀ i cur, Reads i.iter ch rest → Inv i cur → (bytes cur).length + (bytes ch).length ≤ bufferLimit → Result (loop i.iter i) (cur ++ ch) rest

section
variable {i : Iter} {cur : List Ch} {c : Nat} {b m : List Nat} {ch : List Ch} {rest : List Nat}

/-- One more character. -/
theorem go_on (ih : Goal ch rest) (hi : Inv i cur) (hp : peek i.iter = c) (h0 : c ≠ 0) (hl : i.iter = b ++ m) (hr : Reads m ch rest)
    (hlim : (bytes cur).length + (bytes ((c, b) :: ch)).length ≤ bufferLimit) {i' : Iter} (hs : step i c = (false, i')) (h1 : i'.iter = m)
    (h2 : i'.start = i.start) (hb : i'.s.buffer = i.s.buffer) (hcl : i'.s.clear = i.s.clear) (hne : i'.s.st ≠ .char)
    (hre : Reach (peek m) i'.s.st i'.nested i'.s.typ i'.s.code (codes cur ++ [c])) : Result (loop i.iter i) (cur ++ (c, b) :: ch) rest := by
  have hbl : (bytes ((c, b) :: ch)).length = b.length + (bytes ch).length := by simp [bytes]
  obtain ⟨k1, k2⟩ := keep_adv c hi.core.buffer hl h1 hb hcl hne (by omega)
  rw [loop_go hp h0 hs, k1, k2]
  have := ih { i' with s := { i'.s with clear := false, buffer := bytes (cur ++ [(c, b)]) } } (cur ++ [(c, b)]) (by simpa [h1] using hr)
    ⟨⟨by rw [codes_snoc]; simpa [h1] using hre, by simp⟩, ?_⟩ (by rw [bytes_snoc]; simp; omega)
  · simpa using this
  · rcases hi.start with hst | ⟨hst, -⟩
    · left
      simp only [h2, hst, bytes_snoc, h1]
      conv => lhs; rw [hl]
      simp
    · right
      refine ⟨by simp, fun hh => ?_⟩
      rw [codes_snoc] at hh
      have := congrArg List.length hh
      simp [codes] at this
      exact absurd this hst

/-- The last character of a code. -/
theorem finish (hi : Inv i cur) (hp : peek i.iter = c) (h0 : c ≠ 0) (hl : i.iter = b ++ m) (hr : Reads m ch rest)
    (hlim : (bytes cur).length + (bytes ((c, b) :: ch)).length ≤ bufferLimit) {i' : Iter} (hs : step i c = (true, i')) (h1 : i'.iter = m)
    (hb : i'.s.buffer = i.s.buffer) (hcl : i'.s.clear = i.s.clear) (hne : i'.s.st ≠ .char) {k : Typ} (hk : i'.s.typ = some k)
    (hco : Code (kind k) i'.s.code (codes cur ++ [c])) : Result (loop i.iter i) (cur ++ (c, b) :: ch) rest := by
  have hbl : (bytes ((c, b) :: ch)).length = b.length + (bytes ch).length := by simp [bytes]
  obtain ⟨-, k2⟩ := keep_adv c hi.core.buffer hl h1 hb hcl hne (by omega)
  rw [loop_done hp h0 hs, k2]
  refine ⟨[], cur ++ [(c, b)], ch, by simp, .nil, .inl ⟨rfl, by simp, by simpa [h1] using hr, ?_, .inl ⟨kind k, by simp [hk], by rw [codes_snoc]; exact hco⟩⟩⟩
  simp only [textOf]; rw [if_pos hne]

/-- Into text. -/
theorem to_text (hi : Inv i cur) (hp : peek i.iter = c) (h0 : c ≠ 0) (hl : i.iter = b ++ m) (hr : Reads m ch rest)
    {i' : Iter} (hs : step i c = (false, i')) (h1 : i'.iter = m) (h2 : i'.start = i.start) (hst : i'.s.st = .char)
    (hstart : i.start = bytes cur ++ i.iter)
    (ht : ∀ r, (∀ x ∈ r, 0x20 ≤ x) → i'.s.typ = some .chars ∧ Run (codes cur ++ [c] ++ r) ∨ Odd (codes cur ++ [c] ++ r)) :
    Result (loop i.iter i) (cur ++ (c, b) :: ch) rest := by
  have hk : keep i.iter i' = (i', i.iter) := by simp [keep, hst]
  rw [loop_go hp h0 hs, hk]
  obtain ⟨r, c', e1, e2, e3, e4, e5, e6, e7, e8, e9⟩ := loop_char hr i.iter i' h1 hst
  simp only at *
  generalize loop i.iter i' = q at *
  refine ⟨[], cur ++ (c, b) :: r, c', by simp [e1], .nil, .inl ⟨e4, by simp, e5, ?_, ?_⟩⟩
  · simp only [textOf, e8]
    rw [if_neg (by simp), e7, h2, hstart, hl, e6, ← List.append_assoc, ← List.append_assoc, between_mid]
    simp [bytes]
  · have hcod : codes (cur ++ (c, b) :: r) = codes cur ++ [c] ++ codes r := by simp [codes]
    rw [hcod]
    rcases ht _ e2 with ⟨h, h'⟩ | h
    · exact .inr (.inl ⟨by rw [e9 h]; rfl, h', e3⟩)
    · exact .inr (.inr ⟨h, e3⟩)

/-- A broken code. -/
theorem give_up (hun : ∀ i, Reads i.iter ((c, b) :: ch) rest → Inv i [] → (bytes ((c, b) :: ch)).length ≤ bufferLimit →
      i.s.st = .unknown → Result (loop i.iter i) ((c, b) :: ch) rest)
    (hrr : Reads i.iter ((c, b) :: ch) rest) (hp : peek i.iter = c) (h0 : c ≠ 0)
    (hlim : (bytes cur).length + (bytes ((c, b) :: ch)).length ≤ bufferLimit) {i' : Iter} (hs : step i c = (false, i')) (h1 : i'.iter = i.iter)
    (h2 : i'.start = i.iter) (hst : i'.s.st = .unknown) (hcl : i'.s.clear = true) (hn : i'.nested = 0 ∨ c < 0x20 ∧ c ≠ 27) (hbr : Broken (codes cur) c) :
    Result (loop i.iter i) (cur ++ (c, b) :: ch) rest := by
  have hk : keep i.iter i' = ({ i' with s := { i'.s with clear := false, buffer := [] } }, i'.iter) := by
    simp [keep, hst, hcl, h1, between_self]
  rw [loop_go hp h0 hs, hk]
  have := hun { i' with s := { i'.s with clear := false, buffer := [] } } (by simpa [h1] using hrr)
    ⟨⟨by simp only [hst]; exact .unknown (by rw [h1, hp]; omega), by simp [bytes]⟩, .inl (by simp [h2, h1, bytes])⟩ (by omega) hst
  obtain ⟨d, w, ch', e1, e2, e3⟩ := this
  refine ⟨cur ++ d, w, ch', by rw [e1]; simp, ?_, e3⟩
  rw [codes_append]
  refine .cons hbr ?_ e2
  rw [← codes_append, ← e1]; rfl

/-- The second character of a C1 code, or its only one. -/
theorem do_c1 (ih : Goal ch rest) (hi : Inv i cur) (hp : peek i.iter = c) (h0 : c ≠ 0) (hl : i.iter = b ++ m) (hm : m = next i.iter) (hr : Reads m ch rest)
    (hlim : (bytes cur).length + (bytes ((c, b) :: ch)).length ≤ bufferLimit) (hst : i.s.st ≠ .char) (hn : i.nested = 0)
    (hs : step i c = nextC1 i.adv c) {x : Nat} (hx : c % 32 + 64 = x) (hin : Intro x (codes cur ++ [c])) :
    Result (loop i.iter i) (cur ++ (c, b) :: ch) rest := by
  unfold nextC1 at hs
  simp only [hx] at hs
  split at hs
  · rename_i h
    refine go_on ih hi hp h0 hl hr hlim hs (by simp [Iter.to, Iter.kind, Iter.adv, hm]) rfl rfl rfl (by simp [Iter.to]) ?_
    simpa [Iter.to, Iter.kind, Iter.adv, hn] using Reach.cmd (pk := peek m) hin h Body.nil
  · rename_i h
    split at hs
    · rename_i h'
      subst h'
      refine go_on ih hi hp h0 hl hr hlim hs (by simp [Iter.to, Iter.kind, Iter.adv, hm]) rfl rfl rfl (by simp [Iter.to]) ?_
      simpa [Iter.to, Iter.kind, Iter.adv, hn] using Reach.csiP (pk := peek m) (ps := []) hin (by simp)
    · rename_i h1
      split at hs
      · rename_i h'
        refine go_on ih hi hp h0 hl hr hlim hs (by simp [Iter.to, Iter.kind, Iter.adv, hm]) rfl rfl rfl (by simp [Iter.to]) ?_
        rw [h'] at hin
        simpa [Iter.to, Iter.kind, Iter.adv, hn, h'] using Reach.sos (pk := peek m) (b := []) hin (by simp) (by simp)
      · rename_i h2
        exact finish hi hp h0 hl hr hlim hs (by simp [Iter.kind, Iter.adv, hm]) rfl rfl (by simpa [Iter.kind, Iter.adv] using hst) (k := .c1) rfl
          (.c1 hin h h1 h2)

/-- At the start of a code. -/
theorem from_unknown (ih : Goal ch rest) (hrr : Reads i.iter ((c, b) :: ch) rest) (hi : Inv i []) (hlim : (bytes ((c, b) :: ch)).length ≤ bufferLimit)
    (hst : i.s.st = .unknown) : Result (loop i.iter i) ((c, b) :: ch) rest := by
  obtain ⟨hp, h0, hl, hr⟩ : peek i.iter = c ∧ c ≠ 0 ∧ i.iter = b ++ next i.iter ∧ Reads (next i.iter) ch rest := by
    cases hrr with
    | cons h1 h2 h3 => exact ⟨rfl, h1, h2, h3⟩
  have hn : i.nested = 0 ∨ 0 < c ∧ c < 0x20 ∧ c ≠ 27 := by
    have := hi.core.reach
    rw [hst, hp] at this
    generalize codes [] = u at this
    generalize i.nested = n at this ⊢
    cases this
    assumption
  have hlim' : (bytes ([] : List Ch)).length + (bytes ((c, b) :: ch)).length ≤ bufferLimit := by simpa [bytes] using hlim
  have hstart : i.start = bytes [] ++ i.iter := by
    rcases hi.start with h | ⟨h, -⟩
    · exact h
    · exact absurd rfl h
  have hs : step i c = nextUnknown i c := by simp [step, hst]
  unfold nextUnknown at hs
  split at hs
  · rename_i h
    subst h
    refine go_on (cur := []) ih hi hp h0 hl hr hlim' hs rfl rfl rfl rfl (by simp [Iter.to]) ?_
    have hn' : i.nested = 0 := by omega
    simpa [Iter.to, Iter.adv, hn', codes] using Reach.esc
  · rename_i h
    split at hs
    · rename_i h'
      exact finish (cur := []) hi hp h0 hl hr hlim' hs rfl rfl rfl (by simp [Iter.kind, Iter.adv, hst]) (k := .c0) rfl
        (Code.c0 (c := c) (by omega) (by omega) h)
    · rename_i h1
      split at hs
      · rename_i h'
        refine do_c1 (cur := []) ih hi hp h0 hl rfl hr hlim' (by simp [hst]) (by omega) (by rw [hs]) rfl ?_
        refine ⟨by omega, by omega, .inr ?_⟩
        simp [codes]; omega
      · rename_i h2
        refine to_text (cur := []) hi hp h0 hl hr hs rfl rfl rfl hstart fun r hr' => .inl ⟨rfl, c, r, by simp [codes], ⟨by omega, by omega⟩, hr'⟩

end

/-- All characters. -/
theorem loop_result : ∀ (ch : List Ch) (rest : List Nat), Goal ch rest
  | [], rest => by
    intro i cur hrr hi hlim
    have hp : peek i.iter = 0 ∧ i.iter = rest := by
      cases hrr with
      | nil h => exact ⟨h, rfl⟩
    have hne : i.s.st ≠ .char := by
      intro h; have := hi.core.reach; rw [h] at this
      generalize codes cur = u at this
      cases this
    rw [loop_stop hp.1]
    refine ⟨[], cur, [], by simp, .nil, .inr ⟨by simpa using hne, rfl, hp.2, ?_⟩⟩
    have := hi.core
    rwa [hp.1] at this
  | (c, b) :: ch, rest => by
    intro i cur hrr hi hlim
    have ih := loop_result ch rest
    have hun : ∀ i, Reads i.iter ((c, b) :: ch) rest → Inv i [] → (bytes ((c, b) :: ch)).length ≤ bufferLimit →
      i.s.st = .unknown → Result (loop i.iter i) ((c, b) :: ch) rest := fun i h1 h2 h3 h4 => from_unknown ih h1 h2 h3 h4
    obtain ⟨hp, h0, hl, hr⟩ : peek i.iter = c ∧ c ≠ 0 ∧ i.iter = b ++ next i.iter ∧ Reads (next i.iter) ch rest := by
      cases hrr with
      | cons h1 h2 h3 => exact ⟨rfl, h1, h2, h3⟩
    have hre := hi.core.reach
    rw [hp] at hre
    generalize hst : i.s.st = st at hre
    generalize hn : i.nested = n at hre
    generalize ht : i.s.typ = t at hre
    generalize hk : i.s.code = k at hre
    generalize hu : codes cur = u at hre
    cases hre with
    | unknown =>
      have : cur = [] := by simpa [codes] using hu
      subst this
      exact hun i hrr hi (by simpa [bytes] using hlim) hst
    | esc =>
      have hs : step i c = nextEsc i c := by simp [step, hst]
      unfold nextEsc at hs
      split at hs
      · rename_i h
        refine do_c1 ih hi hp h0 hl rfl hr hlim (by simp [hst]) hn hs rfl ?_
        rw [hu]
        have hx : c % 32 + 64 = c := by omega
        rw [hx]
        exact ⟨h.1, h.2, .inl rfl⟩
      · rename_i h
        split at hs
        · rename_i h'
          refine finish hi hp h0 hl hr hlim hs rfl rfl rfl (by simp [Iter.kind, Iter.adv, hst]) (k := .icf) rfl ?_
          rw [hu]
          exact .icf h'.1 h'.2
        · rename_i h'
          have hstart : i.start = bytes cur ++ i.iter := by
            rcases hi.start with h1 | ⟨-, h1⟩
            · exact h1
            · have := h1 hu; omega
          refine to_text hi hp h0 hl hr hs rfl rfl rfl hstart fun r hr' => .inr ⟨c, r, by simp [hu], by omega, hr'⟩
    | @csiP i0 ps h1 h2 =>
      have hs : step i c = nextCsiP i c := by simp [step, hst]
      unfold nextCsiP at hs
      split at hs
      · rename_i h
        refine go_on ih hi hp h0 hl hr hlim hs rfl rfl rfl rfl (by simp [Iter.adv, hst]) ?_
        have := Reach.csiP (pk := peek (next i.iter)) (ps := ps ++ [c]) h1 (by
          intro x hx; rcases List.mem_append.1 hx with hx | hx
          · exact h2 x hx
          · simp at hx; subst hx; exact h)
        simpa [Iter.adv, hst, hn, ht, hk, hu] using this
      · rename_i h
        unfold nextCsiF at hs
        split at hs
        · rename_i h'
          refine go_on ih hi hp h0 hl hr hlim hs rfl rfl rfl rfl (by simp [Iter.to, Iter.adv]) ?_
          have := Reach.csiF (pk := peek (next i.iter)) (is := [c]) h1 h2 (fun x hx => by simp at hx; subst hx; exact h') (by simp)
          simpa [Iter.to, Iter.adv, hn, ht, hk, hu] using this
        · rename_i h3
          split at hs
          · rename_i h'
            refine finish hi hp h0 hl hr hlim hs rfl rfl rfl (by simp [Iter.to, Iter.adv]) (k := .c1) ht ?_
            rw [hu]
            have := Code.csi (is := []) h1 h2 (by simp) h'
            simpa [Iter.to, Iter.adv, hk, kind] using this
          · rename_i h4
            refine give_up hun hrr hp h0 hlim hs rfl rfl rfl rfl (.inl (by simpa [Iter.abort, Iter.to] using hn)) ?_
            rw [hu]
            have := Broken.csi (is := []) h1 h2 (by simp) h3 h4 (fun _ => h)
            simpa using this
    | @csiF i0 ps is h1 h2 h2' hne =>
      have hs : step i c = nextCsiF i c := by simp [step, hst]
      unfold nextCsiF at hs
      split at hs
      · rename_i h'
        refine go_on ih hi hp h0 hl hr hlim hs rfl rfl rfl rfl (by simp [Iter.adv, hst]) ?_
        have := Reach.csiF (pk := peek (next i.iter)) (is := is ++ [c]) h1 h2 (by
          intro x hx; rcases List.mem_append.1 hx with hx | hx
          · exact h2' x hx
          · simp at hx; subst hx; exact h') (by simp)
        simpa [Iter.adv, hst, hn, ht, hk, hu] using this
      · rename_i h3
        split at hs
        · rename_i h'
          refine finish hi hp h0 hl hr hlim hs rfl rfl rfl (by simp [Iter.adv, hst]) (k := .c1) ht ?_
          rw [hu]
          have := Code.csi h1 h2 h2' h'
          simpa [Iter.adv, hk, kind] using this
        · rename_i h4
          refine give_up hun hrr hp h0 hlim hs rfl rfl rfl rfl (.inl (by simpa [Iter.abort] using hn)) ?_
          rw [hu]
          exact Broken.csi h1 h2 h2' h3 h4 (fun h => absurd h hne)
    | @cmd x i0 n' b0 h1 h2 h3 =>
      have hs : step i c = nextCmdStr i c := by simp [step, hst]
      unfold nextCmdStr at hs
      split at hs
      · rename_i h
        subst h
        change step i 27 = (if peek (next i.iter) = 0x5d then (false, { i.adv with nested := i.nested + 1 })
          else if peek (next i.iter) = 0x5c ∧ i.nested > 0 then (false, { i.adv with nested := i.nested - 1 }) else (false, i.adv.to .escSt)) at hs
        by_cases h : peek (next i.iter) = 0x5d
        · rw [if_pos h] at hs
          refine go_on ih hi hp h0 hl hr hlim hs rfl rfl rfl rfl (by simp [Iter.adv, hst]) ?_
          have := Reach.cmdOpen (pk := peek (next i.iter)) h1 h2 h3 h
          simpa [Iter.adv, hst, hn, ht, hk, hu] using this
        · rw [if_neg h] at hs
          by_cases h' : peek (next i.iter) = 0x5c ∧ i.nested > 0
          · rw [if_pos h'] at hs
            refine go_on ih hi hp h0 hl hr hlim hs rfl rfl rfl rfl (by simp [Iter.adv, hst]) ?_
            obtain ⟨q, hq⟩ : ∃ q, n = q + 1 := ⟨n - 1, by omega⟩
            subst hq
            have := Reach.cmdClose (pk := peek (next i.iter)) h1 h2 h3 h'.1
            simpa [Iter.adv, hst, hn, ht, hk, hu] using this
          · rw [if_neg h'] at hs
            refine go_on ih hi hp h0 hl hr hlim hs rfl rfl rfl rfl (by simp [Iter.to]) ?_
            have := Reach.cmdEsc (pk := peek (next i.iter)) h1 h2 h3 h (fun h5 => by omega)
            simpa [Iter.to, Iter.adv, hn, ht, hk, hu] using this
      · rename_i h27
        split at hs
        · rename_i h
          split at hs
          · rename_i h'
            refine go_on ih hi hp h0 hl hr hlim hs rfl rfl rfl rfl (by simp [Iter.adv, hst]) ?_
            obtain ⟨q, hq⟩ : ∃ q, n = q + 1 := ⟨n - 1, by omega⟩
            subst hq
            have := Reach.cmd (pk := peek (next i.iter)) h1 h2 h3.bel
            simpa [Iter.adv, hst, hn, ht, hk, hu, h'.1] using this
          · rename_i h'
            refine finish hi hp h0 hl hr hlim hs rfl rfl rfl (by simp [Iter.adv, hst]) (k := .c1) ht ?_
            rw [hu]
            have := Code.cmd (t := [c]) h1 h2 h3 (by
              rcases h with rfl | rfl
              · exact .inl rfl
              · exact .inr ⟨by omega, .inl rfl⟩)
            simpa [Iter.adv, hk, kind] using this
        · rename_i h
          split at hs
          · rename_i h'
            refine go_on ih hi hp h0 hl hr hlim hs rfl rfl rfl rfl (by simp [Iter.adv, hst]) ?_
            have := Reach.cmd (pk := peek (next i.iter)) h1 h2 (h3.char (c := c) ⟨by omega, by omega⟩)
            simpa [Iter.adv, hst, hn, ht, hk, hu] using this
          · rename_i h'
            refine give_up hun hrr hp h0 hlim hs rfl rfl rfl rfl (.inr (by omega)) ?_
            rw [hu]
            exact Broken.cmd h1 h2 h3 (by omega) (fun h => h' h.1) h27 (by omega)
    | @cmdOpen x i0 n' b0 h1 h2 h3 h5 =>
      subst h5
      have hs : step i 0x5d = (false, i.adv) := by simp [step, hst, nextCmdStr]
      refine go_on ih hi hp h0 hl hr hlim hs rfl rfl rfl rfl (by simp [Iter.adv, hst]) ?_
      have := Reach.cmd (pk := peek (next i.iter)) h1 h2 h3.open_
      simpa [Iter.adv, hst, hn, ht, hk, hu] using this
    | @cmdClose x i0 n' b0 h1 h2 h3 h5 =>
      subst h5
      have hs : step i 0x5c = (false, i.adv) := by simp [step, hst, nextCmdStr]
      refine go_on ih hi hp h0 hl hr hlim hs rfl rfl rfl rfl (by simp [Iter.adv, hst]) ?_
      have := Reach.cmd (pk := peek (next i.iter)) h1 h2 h3.st
      simpa [Iter.adv, hst, hn, ht, hk, hu] using this
    | @cmdEsc x i0 n' b0 h1 h2 h3 h4 h5 =>
      have hs : step i c = nextEscSt i c := by simp [step, hst]
      unfold nextEscSt at hs
      split at hs
      · rename_i h
        refine finish hi hp h0 hl hr hlim hs rfl rfl rfl (by simp [Iter.adv, hst]) (k := .c1) ht ?_
        rw [hu, h]
        have := Code.cmd (t := [27, 0x5c]) h1 h2 h3 (.inr ⟨h5 h, .inr rfl⟩)
        simpa [Iter.adv, hk, kind] using this
      · rename_i h
        refine give_up hun hrr hp h0 hlim hs rfl rfl rfl rfl (.inl rfl) ?_
        rw [hu]
        exact Broken.cmdEsc h1 h2 h3 h h4
    | @sos i0 b0 h1 h2 h3 =>
      have hs : step i c = nextCharStr i c := by simp [step, hst]
      unfold nextCharStr at hs
      split at hs
      · rename_i h
        subst h
        refine go_on ih hi hp h0 hl hr hlim hs rfl rfl rfl rfl (by simp [Iter.to]) ?_
        have := Reach.sosEsc (pk := peek (next i.iter)) h1 h2 h3
        simpa [Iter.to, Iter.adv, hn, ht, hk, hu] using this
      · rename_i h
        by_cases h9 : c = 0x9c
        · rw [decide_eq_true h9] at hs
          refine finish hi hp h0 hl hr hlim hs rfl rfl rfl (by simp [Iter.adv, hst]) (k := .c1) ht ?_
          rw [hu, h9]
          have := Code.sos (t := [0x9c]) h1 h2 h3 (.inl rfl)
          simpa [Iter.adv, hk, kind] using this
        · rw [decide_eq_false h9] at hs
          refine go_on ih hi hp h0 hl hr hlim hs rfl rfl rfl rfl (by simp [Iter.adv, hst]) ?_
          have := Reach.sos (pk := peek (next i.iter)) (b := b0 ++ [c]) h1 (by simp [h2]; omega) (by simp [h3]; omega)
          simpa [Iter.adv, hst, hn, ht, hk, hu] using this
    | @sosEsc i0 b0 h1 h2 h3 =>
      have hs : step i c = nextEscSt i c := by simp [step, hst]
      unfold nextEscSt at hs
      split at hs
      · rename_i h
        refine finish hi hp h0 hl hr hlim hs rfl rfl rfl (by simp [Iter.adv, hst]) (k := .c1) ht ?_
        rw [hu, h]
        have := Code.sos (t := [27, 0x5c]) h1 h2 h3 (.inr rfl)
        simpa [Iter.adv, hk, kind] using this
      · rename_i h
        refine give_up hun hrr hp h0 hlim hs rfl rfl rfl rfl (.inl rfl) ?_
        rw [hu]
        exact Broken.sos h1 h2 h3 h

/-! The walk -/

theorem nextC1_iter (j : Iter) (c : Nat) : (nextC1 j c).2.iter = j.iter := by
  unfold nextC1; simp only; repeat' split
  all_goals rfl

/-- A step that ends a code outside text reads something. -/
theorem step_done {i : Iter} {c : Nat} (hp : peek i.iter ≠ 0) (hst : i.s.st ≠ .char) (h : (step i c).1 = true) :
    (step i c).2.iter.length < i.iter.length := by
  have hl : (next i.iter).length < i.iter.length := next_lt (more_of_peek hp)
  revert h
  unfold step
  cases hs : i.s.st <;> simp only
  · unfold nextUnknown; repeat' split
    all_goals intro _
    all_goals first | exact hl | (rw [nextC1_iter]; exact hl)
  · exact absurd hs hst
  · unfold nextEsc; repeat' split
    all_goals intro _
    all_goals first | exact hl | (rw [nextC1_iter]; exact hl)
  · unfold nextEscSt; split
    · exact fun _ => hl
    · simp
  · unfold nextCsiP nextCsiF; repeat' split
    all_goals first | exact fun _ => hl | simp
  · unfold nextCsiF; repeat' split
    all_goals first | exact fun _ => hl | simp
  · unfold nextCmdStr; simp only; repeat' split
    all_goals first | exact fun _ => hl | simp
  · unfold nextCharStr; repeat' split
    all_goals exact fun _ => hl

/-- A code is found by reading something. -/
theorem loop_lt (copy : List Nat) (i : Iter) (hst : i.s.st ≠ .char) (h : (loop copy i).1 = true) : (loop copy i).2.iter.length < i.iter.length := by
  fun_induction loop copy i with
  | case1 => simp [hst] at h
  | case2 copy i hp r k hd =>
    show (keep copy r.2).1.iter.length < _
    rw [keep_iter]
    exact step_done hp hst hd
  | case3 copy i hp r k hd ih =>
    rcases step_progress hp (by simpa using hd) with h' | ⟨h1, h2, -⟩
    · refine Nat.lt_of_le_of_lt (loop_len _ _) ?_
      rw [keep_iter]; exact h'
    · have := ih (by rw [keep_st]; show (step i (peek i.iter)).2.s.st ≠ _; rw [h2]; simp) h
      rw [keep_iter] at this
      rwa [show r.2.iter = i.iter from h1] at this

theorem nextCode_lt (s : State) (n : Nat) (l : List Nat) (hst : s.st ≠ .char) (h : (nextCode s n l).1 ≠ none) :
    (nextCode s n l).2.2.2.length < l.length := by
  revert h
  unfold nextCode
  simp only
  split
  · rename_i h; intro _; exact loop_lt _ _ hst h
  · simp

theorem nextCode_st (s : State) (n : Nat) (l : List Nat) (h : (nextCode s n l).1 ≠ none) : (nextCode s n l).2.1.st = .unknown := by
  revert h
  unfold nextCode
  simp only
  split
  · intro _; rfl
  · simp

theorem walkFrom_some (s : State) (n : Nat) (l : List Nat) (hst : s.st ≠ .char) : ∃ r, walkFrom s n l = some r := by
  fun_induction walkFrom s n l with
  | case1 => exact ⟨_, rfl⟩
  | case2 s n l p s' n' l' he hlt ih =>
    have := nextCode_st s n l (by simp [he])
    rw [he] at this
    obtain ⟨r, hr⟩ := ih (by simp only at this; simp [this])
    exact ⟨_, by rw [hr]; rfl⟩
  | case3 s n l p s' n' l' he hlt =>
    have := nextCode_lt s n l hst (by simp [he])
    rw [he] at this
    exact absurd this hlt

theorem Reads.ne {l : List Nat} {ch : List Ch} {rest : List Nat} (h : Reads l ch rest) : ∀ p ∈ ch, p.2 ≠ [] := by
  induction h with
  | nil => simp
  | @cons l b ch rest hp hl h ih =>
    intro p hpm
    rcases List.mem_cons.1 hpm with rfl | hpm
    · intro hb
      have := next_lt (more_of_peek hp)
      simp only at hb
      rw [hb, List.nil_append] at hl
      rw [← hl] at this
      exact absurd this (Nat.lt_irrefl _)
    · exact ih p hpm

theorem bytes_ne {w : List Ch} (h : ∀ p ∈ w, p.2 ≠ []) (hw : w ≠ []) : bytes w ≠ [] := by
  cases w with
  | nil => exact absurd rfl hw
  | cons p w => simp [bytes, h p (by simp)]

theorem Core.started {s : State} {n : Nat} {w : List Ch} (h : Core 0 s n w) : w = [] ∨ Started (codes w) := by
  have hr := h.reach
  generalize s.st = st at hr
  generalize s.typ = t at hr
  generalize s.code = k at hr
  generalize hu : codes w = u at hr
  cases hr with
  | unknown => left; simpa [codes] using hu
  | esc => exact .inr .esc
  | csiP h1 h2 => right; simpa using Started.csi (is := []) h1 h2 (by simp)
  | csiF h1 h2 h3 => exact .inr (.csi h1 h2 h3)
  | cmd h1 h2 h3 => right; simpa using Started.cmd (t := []) h1 h2 h3 (.inl rfl)
  | cmdOpen h1 h2 h3 h4 => simp at h4
  | cmdClose h1 h2 h3 h4 => simp at h4
  | cmdEsc h1 h2 h3 => exact .inr (.cmd h1 h2 h3 (.inr rfl))
  | sos h1 h2 h3 => right; simpa using Started.sos (t := []) h1 h2 h3 (.inl rfl)
  | sosEsc h1 h2 h3 => exact .inr (.sos h1 h2 h3 (.inr rfl))

def view (p : Piece) : List Nat × Option Kind × Nat := (p.text, p.typ.map kind, p.code)

theorem walk_tiles (s : State) (n : Nat) (l : List Nat) (cur ch : List Ch) (rest : List Nat) (hr : Reads l ch rest) (hi : Inv ⟨s, l, l, n⟩ cur)
    (hne : ∀ p ∈ cur, p.2 ≠ []) (hlim : (bytes cur).length + (bytes ch).length ≤ bufferLimit) :
    ∃ ps s' n' left, walkFrom s n l = some (ps, s') ∧ Tiles left (cur ++ ch) (ps.map view) ∧ Core 0 s' n' left ∧ left.Sublist (cur ++ ch) := by
  induction hN : l.length using Nat.strongRecOn generalizing s n l cur ch with
  | _ N ih =>
    have hst : s.st ≠ .char := by
      intro h; have := hi.core.reach; simp only [h] at this
      generalize codes cur = u at this
      cases this
    have hlt := nextCode_lt s n l hst
    have hres := loop_result ch rest _ cur hr hi hlim
    obtain ⟨d, w, ch', e1, e2, e3⟩ := hres
    have hall : ∀ p ∈ cur ++ ch, p.2 ≠ [] := fun p hp => (List.mem_append.1 hp).elim (hne p) (hr.ne p)
    have hlen : (bytes w).length ≤ bufferLimit := by
      have := congrArg (fun x => (bytes x).length) e1
      simp only [bytes_append, List.length_append] at this
      omega
    rcases e3 with ⟨f1, f2, f3, f4, f5⟩ | ⟨f1, f2, f3, f4⟩
    · have htext : (if (loop l ⟨s, l, l, n⟩).2.s.st ≠ .char then (loop l ⟨s, l, l, n⟩).2.s.buffer
          else (loop l ⟨s, l, l, n⟩).2.start.take (((loop l ⟨s, l, l, n⟩).2.start.length - (loop l ⟨s, l, l, n⟩).2.iter.length) % 65536)) = bytes w := by
        rw [← f4]
        unfold textOf at f4 ⊢
        split
        · rfl
        · rename_i h
          rw [if_neg h] at f4
          have : (loop l ⟨s, l, l, n⟩).2.start.length - (loop l ⟨s, l, l, n⟩).2.iter.length ≤ bufferLimit := by
            rw [← f4] at hlen
            simp only [between, List.length_take] at hlen
            omega
          rw [Nat.mod_eq_of_lt (by unfold bufferLimit at this; omega)]
          rfl
      have hbw : bytes w ≠ [] := bytes_ne (fun p hp => hall p (by rw [e1]; simp [hp])) f2
      have hcode : nextCode s n l = (some ⟨bytes w, (loop l ⟨s, l, l, n⟩).2.s.typ, (loop l ⟨s, l, l, n⟩).2.s.code⟩,
          (loop l ⟨s, l, l, n⟩).2.s.reset, 0, (loop l ⟨s, l, l, n⟩).2.iter) := by
        unfold nextCode
        simp only [f1, if_true]
        rw [htext, if_neg hbw]
      rw [hcode] at hlt
      have hlt' := hlt (by simp)
      simp only at hlt'
      obtain ⟨ps, s', n', left, g1, g2, g3, g4⟩ := ih _ (by rw [← hN]; exact hlt') (loop l ⟨s, l, l, n⟩).2.s.reset 0 (loop l ⟨s, l, l, n⟩).2.iter [] ch' f3
        ⟨⟨.unknown (.inl rfl), by simp [State.reset, bytes]⟩, .inl (by simp [bytes])⟩ (by simp) (by
          have := congrArg (fun x => (bytes x).length) e1
          simp only [bytes_append, List.length_append] at this
          simp [bytes] at *; omega) rfl
      refine ⟨⟨bytes w, (loop l ⟨s, l, l, n⟩).2.s.typ, (loop l ⟨s, l, l, n⟩).2.s.code⟩ :: ps, s', n', left, ?_, ?_, g3, ?_⟩
      · rw [walkFrom, hcode]
        simp only [hlt', if_true, g1, Option.map_some]
      · rw [e1]
        exact .cons e2 f5 g2
      · rw [e1]
        exact (g4.trans (List.sublist_append_right _ _)).trans (List.sublist_append_right _ _)
    · subst f2
      rw [List.append_nil] at *
      refine ⟨[], (loop l ⟨s, l, l, n⟩).2.s, (loop l ⟨s, l, l, n⟩).2.nested, w, ?_, ?_, f4, ?_⟩
      · rw [walkFrom]
        simp only [nextCode, f1, Bool.false_eq_true, if_false]
      · rw [e1]; exact .done e2 f4.started
      · rw [e1]; exact List.sublist_append_right _ _

/-! Several texts -/

theorem loop_false (copy : List Nat) (i : Iter) (h : (loop copy i).1 = false) : (loop copy i).2.s.st ≠ .char := by
  fun_induction loop copy i with
  | case1 => simpa using h
  | case2 => simp at h
  | case3 copy i hp r k hd ih => exact ih h

theorem walkFrom_st' (s : State) (n : Nat) (l : List Nat) : ∀ r, walkFrom s n l = some r → r.2.st ≠ .char := by
  fun_induction walkFrom s n l with
  | case1 s n l s' n' l' he =>
    intro r h
    injection h with h
    subst h
    show s'.st ≠ _
    unfold nextCode at he
    simp only at he
    split at he
    · injection he with _ he
      injection he with he _
      rw [← he]; simp [State.reset]
    · rename_i hf
      injection he with _ he
      injection he with he _
      rw [← he]; exact loop_false _ _ (by simpa using hf)
  | case2 s n l p s' n' l' he hlt ih =>
    intro r h
    rw [Option.map_eq_some_iff] at h
    obtain ⟨q, hq, rfl⟩ := h
    exact ih q hq
  | case3 => intro r h; simp at h

theorem walkFrom_st {s : State} {n : Nat} {l : List Nat} {r : List Piece × State} (h : walkFrom s n l = some r) : r.2.st ≠ .char := walkFrom_st' s n l r h

theorem walkAll_some (ls : List (List Nat)) : ∀ s : State, s.st ≠ .char → ∃ r, walkAll s ls = some r := by
  induction ls with
  | nil => exact fun s _ => ⟨_, rfl⟩
  | cons l ls ih =>
    intro s hs
    obtain ⟨r, hr⟩ := walkFrom_some s 0 l hs
    obtain ⟨q, hq⟩ := ih r.2 (walkFrom_st hr)
    exact ⟨_, by simp only [walkAll, walk, hr, Option.bind_some, hq, Option.map_some]; rfl⟩

theorem reads_chars : ∀ (cs : List Nat), (∀ c ∈ cs, IsText c) → Reads (flat cs) (chars cs) []
  | [], _ => .nil rfl
  | c :: cs, h => by
    have hc : IsText c := h c (by simp)
    have hp : peek (flat (c :: cs)) = c := Doskey.peek_flat hc _
    have hn : next (flat (c :: cs)) = flat cs := Doskey.next_flat hc _
    have := Reads.cons (l := flat (c :: cs)) (b := Utf.specUtf8 c) (ch := chars cs) (rest := []) (by rw [hp]; have := hc.1; omega)
      (by rw [hn]; rfl) (by rw [hn]; exact reads_chars cs (fun x hx => h x (by simp [hx])))
    rw [hp] at this
    exact this

theorem codes_chars (cs : List Nat) : codes (chars cs) = cs := by simp [codes, chars, Function.comp_def]
theorem bytes_chars (cs : List Nat) : bytes (chars cs) = flat cs := by simp [bytes, chars, flat, List.flatMap_map]

theorem body_closed {n : Nat} {b : List Nat} (h : Body n b) : ¬ [27, 0x5d] <:+: b → n = 0 := by
  induction h with
  | nil => exact fun _ => rfl
  | char h hc ih => exact fun hi => ih fun h' => hi (h'.trans (List.infix_append' [] _ _))
  | @open_ n b h ih => exact fun hi => absurd ⟨b, [], by simp⟩ hi
  | st h ih => intro hi; have := ih fun h' => hi (h'.trans (List.infix_append' [] _ _)); omega
  | bel h ih => intro hi; have := ih fun h' => hi (h'.trans (List.infix_append' [] _ _)); omega

theorem infix_tail {x : Nat} {i b e : List Nat} (hin : Intro x i) (h : ¬ [27, 0x5d] <:+: (i ++ b ++ e).tail) : ¬ [27, 0x5d] <:+: b ∧ ¬ [27, 0x5d] <:+: b ++ e := by
  have hsuf : b ++ e <:+ (i ++ b ++ e).tail := by
    rcases hin.2.2 with rfl | rfl
    · exact ⟨[x], by simp⟩
    · exact ⟨[], by simp⟩
  exact ⟨fun h' => h (h'.trans ((List.prefix_append b e).isInfix.trans hsuf.isInfix)), fun h' => h (h'.trans hsuf.isInfix)⟩

/-- Going on with another text. -/
theorem Core.resume {s : State} {n : Nat} {left : List Ch} (h : Core 0 s n left) {l : List Nat} {ch : List Ch} {rest : List Nat} (hr : Reads l ch rest)
    (hre : Resumes (codes left) (codes ch)) : Inv ⟨s, l, l, 0⟩ left := by
  have hpk : (∃ c cs, codes ch = c :: cs ∧ peek l = c) ∨ codes ch = [] ∧ peek l = 0 := by
    cases hr with
    | nil h => exact .inr ⟨rfl, h⟩
    | cons h1 h2 h3 => exact .inl ⟨_, _, rfl, rfl⟩
  have hend : ∀ b, ¬ [27, 0x5d] <:+: (b ++ [27]) ++ (codes ch).take 1 → peek l ≠ 0x5d := by
    intro b hb hp
    rcases hpk with ⟨c, cs, h1, h2⟩ | ⟨-, h2⟩
    · refine hb ⟨b, [], ?_⟩
      rw [h1, ← h2, hp]; simp
    · omega
  refine ⟨⟨?_, h.buffer⟩, ?_⟩
  · have hreach := h.reach
    show Reach (peek l) s.st 0 s.typ s.code (codes left)
    have hno := hre.1
    generalize s.st = st at hreach ⊢
    generalize s.typ = t at hreach ⊢
    generalize s.code = k at hreach ⊢
    generalize codes left = u at hreach hno ⊢
    cases hreach with
    | unknown => exact .unknown (.inl rfl)
    | esc => exact .esc
    | csiP h1 h2 => exact .csiP h1 h2
    | csiF h1 h2 h3 h4 => exact .csiF h1 h2 h3 h4
    | cmd h1 h2 h3 =>
      have := body_closed h3 (infix_tail h1 hno).1
      subst this
      exact .cmd h1 h2 h3
    | cmdOpen h1 h2 h3 h4 => simp at h4
    | cmdClose h1 h2 h3 h4 => simp at h4
    | cmdEsc h1 h2 h3 =>
      rw [List.append_assoc _ _ [27]] at hno
      have hno2 := infix_tail h1 hno
      have := body_closed h3 fun h' => hno2.1 (h'.trans (List.infix_append' [] _ _))
      subst this
      exact .cmdEsc h1 h2 h3 (hend _ hno2.2) (fun _ => rfl)
    | sos h1 h2 h3 => exact .sos h1 h2 h3
    | sosEsc h1 h2 h3 => exact .sosEsc h1 h2 h3
  · by_cases hl : left = []
    · subst hl; exact .inl (by simp [bytes])
    · refine .inr ⟨hl, fun h27 => ?_⟩
      show 0x40 ≤ peek l ∧ peek l ≤ 0x7f ∨ peek l = 0
      rcases hpk with ⟨c, cs, h1, h2⟩ | ⟨-, h2⟩
      · have := hre.2 h27 c (by rw [h1]; rfl)
        rw [h2]; exact .inl this
      · exact .inr h2

theorem bytes_sublist {a b : List Ch} (h : a.Sublist b) : (bytes a).length ≤ (bytes b).length := by
  induction h with
  | slnil => exact Nat.le_refl _
  | cons p h ih => simp [bytes] at *; omega
  | cons_cons p h ih => simp [bytes] at *; omega

theorem walkAll_chunks (css : List (List Nat)) : ∀ (s : State) (n : Nat) (left : List Ch), (∀ cs ∈ css, ∀ c ∈ cs, IsText c) → Core 0 s n left →
    (∀ p ∈ left, p.2 ≠ []) → s.st ≠ .char → (bytes left).length + (css.map flat).flatten.length ≤ bufferLimit →
    ∃ ps s', walkAll s (css.map flat) = some (ps, s') ∧ Chunks left (css.map chars) (ps.map view) := by
  induction css with
  | nil => exact fun s n left _ _ _ _ _ => ⟨[], s, rfl, rfl⟩
  | cons cs css ih =>
    intro s n left hcs hc hne hst hlim
    have hr := reads_chars cs (hcs cs (by simp))
    simp only [List.map_cons, List.flatten_cons, List.length_append] at hlim
    by_cases hres : Resumes (codes left) (codes (chars cs))
    · obtain ⟨ps, s', n', left', g1, g2, g3, g4⟩ := walk_tiles s 0 (flat cs) left (chars cs) [] hr (hc.resume hr hres) hne (by rw [bytes_chars]; omega)
      have hb := bytes_sublist g4
      rw [bytes_append, bytes_chars, List.length_append] at hb
      obtain ⟨qs, s'', k1, k2⟩ := ih s' n' left' (fun c h => hcs c (by simp [h])) g3
        (fun p hp => (List.mem_append.1 (g4.subset hp)).elim (hne p) (hr.ne p)) (walkFrom_st g1) (by omega)
      refine ⟨ps ++ qs, s'', by simp only [List.map_cons, walkAll, walk, g1, Option.bind_some, k1, Option.map_some], ?_⟩
      intro _
      exact ⟨left', _, _, List.map_append, g2, k2⟩
    · obtain ⟨r, hr⟩ := walkAll_some ((cs :: css).map flat) s hst
      exact ⟨r.1, r.2, hr, fun h => absurd h hres⟩

/-! Printable text -/

/-- The text starts with a control character. -/
def Special (w : List Nat) : Prop := ∃ c r, w = c :: r ∧ ¬ Printable c

theorem Special.app {w : List Nat} (h : Special w) (r : List Nat) : Special (w ++ r) := by
  obtain ⟨c, t, rfl, h⟩ := h
  exact ⟨c, t ++ r, rfl, h⟩

theorem intro_special {x : Nat} {i : List Nat} (h : Intro x i) : Special i := by
  obtain ⟨h1, h2, rfl | rfl⟩ := h
  · exact ⟨_, _, rfl, by unfold Printable; omega⟩
  · exact ⟨_, _, rfl, by unfold Printable; omega⟩

theorem started_special {w : List Nat} (h : Started w) : Special w := by
  cases h with
  | esc => exact ⟨_, _, rfl, by unfold Printable; omega⟩
  | csi h => exact ((intro_special h).app _).app _
  | sos h => exact ((intro_special h).app _).app _
  | cmd h => exact ((intro_special h).app _).app _

theorem broken_special {w : List Nat} {c : Nat} (h : Broken w c) : Special w := by
  cases h with
  | csi h => exact ((intro_special h).app _).app _
  | cmd h => exact (intro_special h).app _
  | cmdEsc h => exact ((intro_special h).app _).app _
  | sos h => exact ((intro_special h).app _).app _

theorem code_special {k : Kind} {x : Nat} {w : List Nat} (h : Code k x w) : Special w := by
  cases h with
  | c0 h1 h2 => exact ⟨_, _, rfl, by unfold Printable; omega⟩
  | icf => exact ⟨_, _, rfl, by unfold Printable; omega⟩
  | c1 h => exact intro_special h
  | csi h => exact (((intro_special h).app _).app _).app _
  | sos h => exact ((intro_special h).app _).app _
  | cmd h => exact ((intro_special h).app _).app _

theorem special_not {w : List Nat} (h : Special w) (hp : ∀ c ∈ w, Printable c) : False := by
  obtain ⟨c, r, rfl, h⟩ := h
  exact h (hp c (by simp))

theorem dropped_printable {d next : List Nat} (h : Dropped d next) (hp : ∀ c ∈ d, Printable c) : d = [] := by
  cases h with
  | nil => rfl
  | cons h => exact (special_not ((broken_special h).app _) hp).elim

theorem tiles_nil {left : List Ch} {ps : List (List Nat × Option Kind × Nat)} (h : Tiles left [] ps) : ps = [] := by
  generalize hch : ([] : List Ch) = ch at h
  cases h with
  | done => rfl
  | @cons d w rest k x ps h1 h2 h3 =>
    exfalso
    obtain ⟨-, hch⟩ := List.append_eq_nil_iff.1 hch.symm
    obtain ⟨rfl, -⟩ := List.append_eq_nil_iff.1 hch
    rcases h2 with ⟨k, -, h⟩ | ⟨-, ⟨c, r, h, -⟩, -⟩ | ⟨⟨c, r, h, -⟩, -⟩
    · obtain ⟨c, r, h, -⟩ := code_special h; simp [codes] at h
    · simp [codes] at h
    · simp [codes] at h

theorem tiles_printable {left ch : List Ch} {ps : List (List Nat × Option Kind × Nat)} (h : Tiles left ch ps) (hp : ∀ c ∈ codes ch, Printable c)
    (hne : ch ≠ []) : ∃ x, ps = [(bytes ch, some .chars, x)] := by
  cases h with
  | @done d h1 h2 =>
    exfalso
    rw [codes_append] at hp
    have hd := dropped_printable h1 fun c hc => hp c (by simp [hc])
    rcases h2 with rfl | h2
    · exact hne (by simpa [codes] using hd)
    · exact special_not (started_special h2) fun c hc => hp c (by simp [hc])
  | @cons d w rest k x ps h1 h2 h3 =>
    simp only [codes_append] at hp
    have hd := dropped_printable h1 fun c hc => hp c (by simp [hc])
    have : d = [] := by simpa [codes] using hd
    subst this
    have hw : ∀ c ∈ codes w, Printable c := fun c hc => hp c (by simp [hc])
    have hstop : Stop (codes rest) → rest = [] := by
      intro hs
      cases rest with
      | nil => rfl
      | cons p rest =>
        have := hs p.1 rfl
        have := (hp p.1 (by simp [codes])).1
        omega
    rcases h2 with ⟨k, -, h⟩ | ⟨rfl, -, hs⟩ | ⟨⟨c, r, h, -⟩, -⟩
    · exact (special_not (code_special h) hw).elim
    · have := hstop hs
      subst this
      rw [tiles_nil h3]
      exact ⟨x, by simp⟩
    · have := hw 27 (by rw [h]; simp)
      exact absurd this (by unfold Printable; omega)

/-- A run whose length has the last 16 bits 0 looks like the end of the text. -/
theorem run_lost (c : Nat) (cs ds : List Nat) (hcs : ∀ x ∈ c :: cs ++ ds, IsText x) (hc : Printable c) (hr : ∀ x ∈ cs, 0x20 ≤ x) (hd : Stop ds)
    (hl : (flat (c :: cs)).length % 65536 = 0) : ∃ s, walk {} (flat (c :: cs ++ ds)) = some ([], s) := by
  have hreads := reads_chars (c :: cs ++ ds) hcs
  have hIc : IsText c := hcs c (by simp)
  have hp : peek (flat (c :: cs ++ ds)) = c := Doskey.peek_flat hIc _
  have hn : next (flat (c :: cs ++ ds)) = flat (cs ++ ds) := Doskey.next_flat hIc _
  have hr2 := reads_chars (cs ++ ds) fun x hx => hcs x (List.mem_cons_of_mem _ hx)
  have hs : step ⟨{}, flat (c :: cs ++ ds), flat (c :: cs ++ ds), 0⟩ c =
      (false, ⟨{ typ := some .chars, st := .char }, flat (cs ++ ds), flat (c :: cs ++ ds), 0⟩) := by
    have h1 := hc.1
    have h2 := hc.2
    have e1 : c ≠ 27 := by omega
    have e2 : ¬ c ≤ 31 := by omega
    simp only [step, nextUnknown, if_neg e1, if_neg e2, if_neg h2, Iter.adv, hn]
  obtain ⟨r, c', e1, e2, e3, e4, e5, e6, e7, e8, e9⟩ := loop_char hr2 (flat (c :: cs ++ ds))
    ⟨{ typ := some .chars, st := .char }, flat (cs ++ ds), flat (c :: cs ++ ds), 0⟩ rfl rfl
  have hlt := loop_go (copy := flat (c :: cs ++ ds)) (i := ⟨{}, flat (c :: cs ++ ds), flat (c :: cs ++ ds), 0⟩) hp (by have := hIc.1; omega) hs
  have hk : keep (flat (c :: cs ++ ds)) ⟨{ typ := some .chars, st := .char }, flat (cs ++ ds), flat (c :: cs ++ ds), 0⟩ =
      (⟨{ typ := some .chars, st := .char }, flat (cs ++ ds), flat (c :: cs ++ ds), 0⟩, flat (c :: cs ++ ds)) := by simp [keep]
  rw [hk] at hlt
  simp only at hlt
  rw [← hlt] at e4 e5 e6 e7 e8 e9
  have hrc : codes r = cs ∧ codes c' = ds := by
    have := congrArg codes e1
    rw [codes_chars, codes_append] at this
    have hsp : ∀ (a b x y : List Nat), (∀ z ∈ a, 0x20 ≤ z) → (∀ z ∈ x, 0x20 ≤ z) → Stop b → Stop y → a ++ b = x ++ y → a = x ∧ b = y := by
      intro a
      induction a with
      | nil =>
        intro b x y _ hx hb _ h
        cases x with
        | nil => exact ⟨rfl, h⟩
        | cons z x =>
          have h1 := hb z (by simp only [List.nil_append] at h; rw [h]; rfl)
          have h2 := hx z (by simp)
          omega
      | cons z a ih =>
        intro b x y ha hx hb hy h
        cases x with
        | nil =>
          have h1 := hy z (by simp only [List.nil_append] at h; rw [← h]; rfl)
          have h2 := ha z (by simp)
          omega
        | cons z' x =>
          simp only [List.cons_append, List.cons.injEq] at h
          obtain ⟨h1, h2⟩ := ih b x y (fun q hq => ha q (by simp [hq])) (fun q hq => hx q (by simp [hq])) hb hy h.2
          exact ⟨by rw [h.1, h1], h2⟩
    obtain ⟨h1, h2⟩ := hsp cs ds (codes r) (codes c') hr e2 hd e3 this
    exact ⟨h1.symm, h2.symm⟩
  have hbr : bytes r = flat cs := by
    have hlen : r.length = cs.length := by rw [← hrc.1]; simp [codes]
    have : r = chars cs := by
      have h := congrArg (List.take cs.length) e1
      rw [← hlen, List.take_left] at h
      rw [← h, hlen]
      simp [chars, List.take_left']
    rw [this, bytes_chars]
  have hfl : flat (c :: cs ++ ds) = flat (c :: cs) ++ flat ds := by simp [flat]
  have hfl2 : flat (cs ++ ds) = flat cs ++ flat ds := by simp [flat]
  have hit : (loop (flat (c :: cs ++ ds)) ⟨{}, flat (c :: cs ++ ds), flat (c :: cs ++ ds), 0⟩).2.iter = flat ds := by
    rw [hbr, hfl2] at e6
    exact (List.append_cancel_left e6).symm
  have hcode : (nextCode {} 0 (flat (c :: cs ++ ds))).1 = none := by
    unfold nextCode
    generalize loop (flat (c :: cs ++ ds)) ⟨{}, flat (c :: cs ++ ds), flat (c :: cs ++ ds), 0⟩ = q at e4 e7 e8 hit ⊢
    have hz : (q.2.start.length - q.2.iter.length) % 65536 = 0 := by
      rw [e7, hit]
      simp only
      rw [hfl, List.length_append, Nat.add_sub_cancel, hl]
    simp only [e4, if_true, e8, hz]
    simp
  refine ⟨(nextCode {} 0 (flat (c :: cs ++ ds))).2.1, ?_⟩
  unfold walk
  rw [walkFrom]
  generalize nextCode {} 0 (flat (c :: cs ++ ds)) = q at hcode ⊢
  obtain ⟨q1, q2, q3, q4⟩ := q
  simp only at hcode
  subst hcode
  rfl

end Clink.Ecma48
