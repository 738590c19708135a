import Verif.Spec.Abbrev
import Verif.Proof.Utf
import Verif.Proof.StrCompare
import Verif.Props.Utf
/- Helper lemmas for C55: text, separators and the encodings. -/
namespace Clink.Abbrev
open Spec Clink.Utf
open Clink.StrCompare (isSep)

theorem isSep_iff (c : Nat) : isSep c = true ↔ Slash c := by simp [isSep, Slash]

/-! ## Encodings -/

theorem u8_append (a b : List Nat) : u8 (a ++ b) = u8 a ++ u8 b := by simp [u8]
theorem u16_append (a b : List Nat) : u16 (a ++ b) = u16 a ++ u16 b := by simp [u16]

theorem wide_u8 {s : List Nat} (h : ∀ c ∈ s, IsText c) : wide (u8 s) = u16 s := (C02_utf8_roundtrip s h).1
theorem narrow_u16 {s : List Nat} (h : ∀ c ∈ s, IsText c) : narrow (u16 s) = u8 s := (C02_utf16_roundtrip s h).1

theorem spec8_bytes (c : Nat) (b : Nat) (hb : b ∈ specUtf8 c) : b = c ∧ c < 128 ∨ 128 ≤ b ∧ 128 ≤ c := by
  unfold specUtf8 at hb
  split at hb
  · left; simp at hb; omega
  · right
    split at hb
    · simp at hb; omega
    · split at hb <;> simp at hb <;> omega

theorem spec16_units (c : Nat) (b : Nat) (hb : b ∈ specUtf16 c) : b = c ∧ c < 0x10000 ∨ 0xD800 ≤ b ∧ 0x10000 ≤ c := by
  unfold specUtf16 at hb
  split at hb
  · left; simp at hb; omega
  · right; simp at hb; omega

theorem spec8_small {c : Nat} (h : c < 128) : specUtf8 c = [c] := by simp [specUtf8, h]
theorem spec16_small {c : Nat} (h : c < 128) : specUtf16 c = [c] := by
  have : c < 0x10000 := by omega
  simp [specUtf16, this]

theorem takeWhile_flat (f : Nat → List Nat) (p : Nat → Bool) (s : List Nat)
    (h : ∀ c ∈ s, f c ≠ [] ∧ ∀ b ∈ f c, p b = p c) : (s.flatMap f).takeWhile p = (s.takeWhile p).flatMap f := by
  induction s with
  | nil => rfl
  | cons c s ih =>
    have hc := h c (by simp)
    have ih := ih (fun c hc => h c (by simp [hc]))
    simp only [List.flatMap_cons, List.takeWhile_cons]
    cases hp : p c with
    | true =>
      rw [List.takeWhile_append_of_pos (by intro b hb; rw [hc.2 b hb, hp]), ih]; simp
    | false =>
      obtain ⟨b, r, hb⟩ := List.exists_cons_of_ne_nil hc.1
      have := hc.2 b (by simp [hb])
      rw [hb]; simp [List.takeWhile_cons, this, hp]

theorem dropWhile_flat (f : Nat → List Nat) (p : Nat → Bool) (s : List Nat)
    (h : ∀ c ∈ s, f c ≠ [] ∧ ∀ b ∈ f c, p b = p c) : (s.flatMap f).dropWhile p = (s.dropWhile p).flatMap f := by
  induction s with
  | nil => rfl
  | cons c s ih =>
    have hc := h c (by simp)
    have ih := ih (fun c hc => h c (by simp [hc]))
    simp only [List.flatMap_cons, List.dropWhile_cons]
    cases hp : p c with
    | true =>
      rw [List.dropWhile_append_of_pos (by intro b hb; rw [hc.2 b hb, hp]), ih]; simp
    | false =>
      obtain ⟨b, r, hb⟩ := List.exists_cons_of_ne_nil hc.1
      have := hc.2 b (by simp [hb])
      rw [hb]; simp [List.dropWhile_cons, this, hp, hb]

theorem isSep_big {b : Nat} (h : 128 ≤ b) : isSep b = false := by
  simp [isSep]; omega

theorem uni8 (c : Nat) : specUtf8 c ≠ [] ∧ ∀ b ∈ specUtf8 c, isSep b = isSep c := by
  refine ⟨specUtf8_ne_nil c, fun b hb => ?_⟩
  rcases spec8_bytes c b hb with h | h
  · rw [h.1]
  · rw [isSep_big h.1, isSep_big h.2]

theorem uni16 (c : Nat) : specUtf16 c ≠ [] ∧ ∀ b ∈ specUtf16 c, isSep b = isSep c := by
  refine ⟨specUtf16_ne_nil c, fun b hb => ?_⟩
  rcases spec16_units c b hb with h | h
  · rw [h.1]
  · rw [isSep_big (by omega), isSep_big (by omega)]

theorem uni8' (c : Nat) : specUtf8 c ≠ [] ∧ ∀ b ∈ specUtf8 c, (fun c => !isSep c) b = (fun c => !isSep c) c :=
  ⟨(uni8 c).1, fun b hb => by simp [(uni8 c).2 b hb]⟩

theorem u8_inj_nil {s : List Nat} : u8 s = [] ↔ s = [] := by
  constructor
  · intro h
    cases s with
    | nil => rfl
    | cons c s => simp [u8, specUtf8_ne_nil] at h
  · rintro rfl; rfl
theorem u16_inj_nil {s : List Nat} : u16 s = [] ↔ s = [] := by
  constructor
  · intro h
    cases s with
    | nil => rfl
    | cons c s => simp [u16, specUtf16_ne_nil] at h
  · rintro rfl; rfl

theorem u16_inj {a b : List Nat} (ha : ∀ c ∈ a, IsText c) (hb : ∀ c ∈ b, IsText c) (h : u16 a = u16 b) : a = b := by
  have h1 := cps16_flat a ha []
  have h2 := cps16_flat b hb []
  simp only [List.append_nil, cps16_nil] at h1 h2
  unfold u16 at h
  rw [← h1, h, h2]

theorem u16_prefix {a b : List Nat} (ha : ∀ c ∈ a, IsText c) (hb : ∀ c ∈ b, IsText c) : u16 a <+: u16 b ↔ a <+: b := by
  constructor
  · rintro ⟨r, hr⟩
    have h1 := cps16_flat a ha r
    have h2 := cps16_flat b hb []
    simp only [List.append_nil, cps16_nil] at h2
    unfold u16 at hr
    rw [hr, h2] at h1
    exact ⟨_, h1.symm⟩
  · rintro ⟨r, rfl⟩; exact ⟨u16 r, (u16_append _ _).symm⟩

theorem u8_prefix {a b : List Nat} (ha : ∀ c ∈ a, IsText c) (hb : ∀ c ∈ b, IsText c) : u8 a <+: u8 b ↔ a <+: b := by
  constructor
  · rintro ⟨r, hr⟩
    have h1 := cps8_flat a ha r
    have h2 := cps8_flat b hb []
    simp only [List.append_nil, cps8_nil] at h2
    unfold u8 at hr
    rw [hr, h2] at h1
    exact ⟨_, h1.symm⟩
  · rintro ⟨r, rfl⟩; exact ⟨u8 r, (u8_append _ _).symm⟩

theorem u8_seps {s : List Nat} (h : ∀ c ∈ s, Slash c) : u8 s = s := by
  induction s with
  | nil => rfl
  | cons c s ih =>
    have hc : c < 128 := by have := h c (by simp); unfold Slash at this; omega
    have := ih (fun c hc => h c (by simp [hc]))
    unfold u8 at this ⊢
    rw [List.flatMap_cons, spec8_small hc, this]; rfl
theorem u16_seps {s : List Nat} (h : ∀ c ∈ s, Slash c) : u16 s = s := by
  induction s with
  | nil => rfl
  | cons c s ih =>
    have hc : c < 128 := by have := h c (by simp); unfold Slash at this; omega
    have := ih (fun c hc => h c (by simp [hc]))
    unfold u16 at this ⊢
    rw [List.flatMap_cons, spec16_small hc, this]; rfl

theorem sep_text {c : Nat} (h : Slash c) : IsText c ∧ c ≠ 34 := by
  unfold IsText; rcases h with rfl | rfl <;> decide

theorem Spec.Plain.text {s : List Nat} (h : Plain s) : ∀ c ∈ s, IsText c := fun c hc => (h c hc).1
theorem Spec.Plain.append {a b : List Nat} (ha : Plain a) (hb : Plain b) : Plain (a ++ b) := by
  intro c hc; rcases List.mem_append.1 hc with h | h
  · exact ha c h
  · exact hb c h
theorem plain_seps {s : List Nat} (h : ∀ c ∈ s, Slash c) : Plain s := fun c hc => sep_text (h c hc)
theorem Spec.Piece.Ok.plainText {p : Piece} (h : p.Ok) : Plain p.text :=
  Spec.Plain.append (plain_seps h.seps) h.plain

/-! ## Parts -/

theorem takeWhile_seps {s r : List Nat} (hs : ∀ c ∈ s, Slash c) (hr : ∀ c, r.head? = some c → ¬ Slash c) :
    (s ++ r).takeWhile isSep = s ∧ (s ++ r).dropWhile isSep = r := by
  have h : ∀ c ∈ s, isSep c = true := fun c hc => (isSep_iff c).2 (hs c hc)
  rw [List.takeWhile_append_of_pos h, List.dropWhile_append_of_pos h]
  cases r with
  | nil => simp
  | cons c r =>
    have : isSep c = false := by
      have := hr c rfl; rw [← isSep_iff] at this; simpa using this
    simp [this]

theorem takeWhile_name {s r : List Nat} (hs : ∀ c ∈ s, ¬ Slash c) (hr : ∀ c, r.head? = some c → Slash c) :
    (s ++ r).takeWhile (fun c => !isSep c) = s ∧ (s ++ r).dropWhile (fun c => !isSep c) = r := by
  have h : ∀ c ∈ s, (fun c => !isSep c) c = true := fun c hc => by
    have := hs c hc; rw [← isSep_iff] at this; simpa using this
  rw [List.takeWhile_append_of_pos h, List.dropWhile_append_of_pos h]
  cases r with
  | nil => simp
  | cons c r =>
    have : isSep c = true := (isSep_iff c).2 (hr c rfl)
    simp [this]

theorem nextPart_u8 (s : List Nat) : nextPart (u8 s) = (u8 (nextPart s).1, u8 (nextPart s).2) := by
  have a := takeWhile_flat specUtf8 isSep s (fun c _ => uni8 c)
  have b := dropWhile_flat specUtf8 isSep s (fun c _ => uni8 c)
  have c := takeWhile_flat specUtf8 _ (s.dropWhile isSep) (fun c _ => uni8' c)
  have d := dropWhile_flat specUtf8 _ (s.dropWhile isSep) (fun c _ => uni8' c)
  unfold nextPart
  simp only [u8_append]
  unfold u8
  rw [a, b, c, d]

theorem nextPart_piece {p : Piece} (hp : p.Ok) {r : List Nat} (hr : ∀ c, r.head? = some c → Slash c) :
    nextPart (u8 (p.text ++ r)) = (u8 p.text, u8 r) := by
  rw [nextPart_u8]
  have h1 := takeWhile_seps (s := p.seps) (r := p.name ++ r) hp.seps (by
    intro c hc
    cases hn : p.name with
    | nil => exact absurd hn hp.some
    | cons x xs => rw [hn] at hc; simp at hc; subst hc; exact hp.name x (by simp [hn]))
  have h2 := takeWhile_name (s := p.name) (r := r) hp.name hr
  unfold nextPart Piece.text
  simp only [List.append_assoc, h1.1, h1.2, h2.1, h2.2]

theorem nextPart_seps {s : List Nat} (hs : ∀ c ∈ s, Slash c) : nextPart s = (s, []) := by
  have h1 := takeWhile_seps (s := s) (r := []) hs (by simp)
  unfold nextPart
  rw [List.append_nil] at h1
  simp only [h1.1, h1.2]; simp

/-! ## Quotes -/

theorem stripQuotes_eq (l : List Nat) : stripQuotes l = l.filter (· != 34) := by
  have key : ∀ l : List Nat, l.filter (· != 34) =
      l.takeWhile (· != 34) ++ ((l.dropWhile (· != 34)).dropWhile (· == 34)).filter (· != 34) := by
    intro l
    have h1 : l.filter (· != 34) = (l.takeWhile (· != 34)).filter (· != 34) ++ (l.dropWhile (· != 34)).filter (· != 34) := by
      rw [← List.filter_append, List.takeWhile_append_dropWhile]
    rw [h1]
    congr 1
    · rw [List.filter_eq_self]; intro c hc
      have := List.all_takeWhile (p := (· != 34)) (l := l)
      rw [List.all_eq_true] at this; exact this c hc
    · generalize l.dropWhile (· != 34) = d
      induction d with
      | nil => rfl
      | cons c d ih =>
        by_cases hc : c = 34
        · subst hc; simpa using ih
        · simp [hc]
  fun_induction stripQuotes l with
  | case1 => rfl
  | case2 l h ih => rw [ih]; exact (key l).symm

theorem stripQuotes_plain {s : List Nat} (h : Plain s) : stripQuotes (u8 s) = u8 s := by
  rw [stripQuotes_eq, List.filter_eq_self]
  intro b hb
  unfold u8 at hb
  rw [List.mem_flatMap] at hb
  obtain ⟨c, hc, hb⟩ := hb
  have h1 := (h c hc).2
  rcases spec8_bytes c b hb with h | h
  · simp [h.1, h1]
  · simp; omega

end Clink.Abbrev
