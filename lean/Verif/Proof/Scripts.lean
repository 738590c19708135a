import Verif.Model.Scripts
import Verif.Spec.Scripts
import Verif.Proof.Tokeniser
import Verif.Props.Utf
import Verif.Props.StrCompare

/-! Proofs for C66. -/

namespace Clink.Scripts
open Clink.Utf (IsText specUtf8 specUtf16)
open Spec

theorem utf8_nil : utf8 [] = [] := rfl
theorem utf8_cons (c : Nat) (cs : List Nat) : utf8 (c :: cs) = specUtf8 c ++ utf8 cs := rfl
theorem utf8_append (a b : List Nat) : utf8 (a ++ b) = utf8 a ++ utf8 b := by simp [utf8]

theorem utf8_eq_nil {cs : List Nat} : utf8 cs = [] ↔ cs = [] := by
  cases cs with
  | nil => simp [utf8]
  | cons c cs => simp [utf8_cons, Utf.specUtf8_ne_nil]

theorem next_utf8 {c : Nat} (hc : IsText c) (l : List Nat) : Utf.iter8.peek (specUtf8 c ++ l) = c ∧ Utf.iter8.adv (specUtf8 c ++ l) = l := by
  have := Utf.next8_spec c hc.1 hc.2.1 l
  constructor
  · show (Utf.next8 _).1 = c
    rw [this]
  · show (Utf.next8 _).2 = l
    rw [this]

theorem text_utf8 (cs : List Nat) (h : ∀ c ∈ cs, IsText c) : Text Utf.iter8 (utf8 cs) cs [] := by
  refine ⟨?_, rfl⟩
  induction cs with
  | nil => exact .nil _
  | cons c cs ih =>
    have hc := h c (by simp)
    rw [utf8_cons]
    exact .cons (Utf.next8_spec c hc.1 hc.2.1 _) (by have := hc.1; omega) (ih fun x hx => h x (by simp [hx]))

theorem equal_iff (lower : Nat → Nat) (p v : List Nat) (hp : ∀ c ∈ p, IsText c) (hv : ∀ c ∈ v, IsText c) :
    equal lower (utf8 p) (utf8 v) = decide (Same lower p v) := by
  have := (StrCompare.C29_equal lower Utf.iter8 ⟨1, false, false⟩ _ _ p v [] [] (text_utf8 p hp) (text_utf8 v hv) rfl rfl StrCompare.peek8_end).1
  unfold equal Same
  exact decide_eq_decide.2 this

/-! Tokens -/

theorem skip_sep (l : List Nat) : Tok.skip Utf.iter8 [59] (59 :: l) = Tok.skip Utf.iter8 [59] l := Tok.skip_sep (by omega)

theorem skip_other {c : Nat} (hc : IsText c) (h : c ≠ 59) (l : List Nat) : Tok.skip Utf.iter8 [59] (specUtf8 c ++ l) = specUtf8 c ++ l := by
  obtain ⟨h1, -⟩ := next_utf8 hc l
  have := hc.1
  rw [Tok.skip, h1, dif_neg (by omega), if_neg (by simpa using h)]

theorem stop_other {c : Nat} (hc : IsText c) (h : c ≠ 59) (l : List Nat) : Tok.stop Utf.iter8 [59] (specUtf8 c ++ l) = Tok.stop Utf.iter8 [59] l := by
  obtain ⟨h1, h2⟩ := next_utf8 hc l
  have := hc.1
  rw [Tok.stop, h1, h2, dif_neg (by omega), if_neg (by simpa using h)]

theorem stop_word (w t : List Nat) (hw : ∀ c ∈ w, IsText c) (h : 59 ∉ w) (ht : t = [] ∨ t.head? = some 59) :
    Tok.stop Utf.iter8 [59] (utf8 w ++ t) = t := by
  induction w with
  | nil => exact Tok.stop_word (by omega) [] t (by intro x hx; cases hx) (by simp) ht
  | cons c w ih =>
    simp only [List.mem_cons, not_or] at h
    rw [utf8_cons, List.append_assoc, stop_other (hw c (by simp)) (Ne.symm h.1)]
    exact ih (fun x hx => hw x (by simp [hx])) h.2

theorem next_word (w t : List Nat) (hne : w ≠ []) (hw : ∀ c ∈ w, IsText c) (h : 59 ∉ w) (ht : t = [] ∨ t.head? = some 59) :
    Tok.next Utf.iter8 [59] (utf8 w ++ t) = some (utf8 w, t) := by
  have e : Tok.skip Utf.iter8 [59] (utf8 w ++ t) = utf8 w ++ t := by
    cases w with
    | nil => exact absurd rfl hne
    | cons c w =>
      simp only [List.mem_cons, not_or] at h
      rw [utf8_cons, List.append_assoc]
      exact skip_other (hw c (by simp)) (Ne.symm h.1) _
  unfold Tok.next
  simp only [e, stop_word w t hw h ht]
  have : 0 < (utf8 w).length := List.length_pos_iff.2 fun h => hne (utf8_eq_nil.1 h)
  rw [if_neg (by rw [List.length_append]; omega)]
  simp

theorem pieces_ne (t : List Nat) : pieces t ≠ [] := by
  cases t with
  | nil => simp [pieces]
  | cons c t =>
    unfold pieces
    split
    · simp
    · split <;> simp

theorem pieces_word (w t : List Nat) (h : 59 ∉ w) (p : List Nat) (ps : List (List Nat)) (ht : pieces t = p :: ps) : pieces (w ++ t) = (w ++ p) :: ps := by
  induction w with
  | nil => exact ht
  | cons c w ih =>
    simp only [List.mem_cons, not_or] at h
    rw [List.cons_append, pieces, if_neg (Ne.symm h.1), ih h.2]
    rfl

theorem pieces_sep (t : List Nat) : pieces (59 :: t) = [] :: pieces t := by rw [pieces, if_pos rfl]

theorem paths_nil : paths [] = [] := rfl

theorem paths_sep (t : List Nat) : paths (59 :: t) = paths t := by
  unfold paths
  rw [pieces_sep, List.filter_cons_of_neg (by simp)]

theorem paths_word (w : List Nat) (hne : w ≠ []) (h : 59 ∉ w) : paths w = [w] := by
  have := pieces_word w [] h [] [] rfl
  rw [List.append_nil] at this
  unfold paths
  rw [this, List.filter_cons_of_pos (by simpa using hne)]
  rfl

theorem paths_word_sep (w t : List Nat) (hne : w ≠ []) (h : 59 ∉ w) : paths (w ++ 59 :: t) = w :: paths t := by
  have := pieces_word w (59 :: t) h _ _ (pieces_sep t)
  rw [List.append_nil] at this
  unfold paths
  rw [this, List.filter_cons_of_pos (by simpa using hne)]

/-- A text is empty, or begins with a semicolon, or is one path, or begins with a path and a semicolon. -/
theorem text_cases (t : List Nat) : t = [] ∨ (∃ t', t = 59 :: t') ∨ (t ≠ [] ∧ 59 ∉ t) ∨ ∃ w t', w ≠ [] ∧ 59 ∉ w ∧ t = w ++ 59 :: t' := by
  induction t with
  | nil => exact .inl rfl
  | cons c t ih =>
    by_cases hc : c = 59
    · subst hc; exact .inr (.inl ⟨t, rfl⟩)
    · rcases ih with rfl | ⟨t', rfl⟩ | ⟨h1, h2⟩ | ⟨w, t', h1, h2, rfl⟩
      · exact .inr (.inr (.inl ⟨by simp, by simpa using Ne.symm hc⟩))
      · exact .inr (.inr (.inr ⟨[c], t', by simp, by simpa using Ne.symm hc, rfl⟩))
      · exact .inr (.inr (.inl ⟨by simp, by simpa using ⟨Ne.symm hc, h2⟩⟩))
      · exact .inr (.inr (.inr ⟨c :: w, t', by simp, by simpa using ⟨Ne.symm hc, h2⟩, rfl⟩))

theorem tokens_utf8 (n : Nat) (t : List Nat) (hn : t.length ≤ n) (ht : ∀ c ∈ t, IsText c) :
    Tok.tokens Utf.iter8 [59] (utf8 t) = (paths t).map utf8 := by
  induction n generalizing t with
  | zero =>
    cases t with
    | cons c t => simp at hn
    | nil => exact Tok.tokens_words (by omega) .nil (by intro x hx; cases hx)
  | succ n ih =>
    have e59 : ∀ t', utf8 (59 :: t') = 59 :: utf8 t' := fun _ => rfl
    have sep : ∀ t', Tok.tokens Utf.iter8 [59] (59 :: t') = Tok.tokens Utf.iter8 [59] t' := by
      intro t'
      rw [Tok.tokens_eq, Tok.tokens_eq _ _ t']
      unfold Tok.next
      rw [skip_sep]
    rcases text_cases t with rfl | ⟨t', rfl⟩ | ⟨h1, h2⟩ | ⟨w, t', h1, h2, rfl⟩
    · exact ih [] (by simp) ht
    · rw [e59, sep, paths_sep]
      exact ih t' (by simp at hn; omega) fun x hx => ht x (by simp [hx])
    · have := next_word t [] h1 ht h2 (.inl rfl)
      rw [List.append_nil] at this
      rw [Tok.tokens_eq, this, paths_word t h1 h2]
      show _ :: Tok.tokens Utf.iter8 [59] (utf8 []) = _
      rw [ih [] (by simp) (by simp)]
      rfl
    · rw [utf8_append, e59, Tok.tokens_eq, next_word w _ h1 (fun x hx => ht x (by simp [hx])) h2 (.inr rfl), paths_word_sep w t' h1 h2]
      show _ :: Tok.tokens Utf.iter8 [59] _ = _
      rw [sep, ih t' (by simp at hn; omega) fun x hx => ht x (by simp [hx])]
      rfl

theorem paths_mem (n : Nat) (t p : List Nat) (hn : t.length ≤ n) (hp : p ∈ paths t) : p ≠ [] ∧ 59 ∉ p ∧ ∀ c ∈ p, c ∈ t := by
  induction n generalizing t with
  | zero =>
    cases t with
    | cons c t => simp at hn
    | nil => cases hp
  | succ n ih =>
    rcases text_cases t with rfl | ⟨t', rfl⟩ | ⟨h1, h2⟩ | ⟨w, t', h1, h2, rfl⟩
    · cases hp
    · rw [paths_sep] at hp
      obtain ⟨a, b, c⟩ := ih t' (by simp at hn; omega) hp
      exact ⟨a, b, fun x hx => by simp [c x hx]⟩
    · rw [paths_word t h1 h2] at hp
      simp only [List.mem_singleton] at hp
      subst hp
      exact ⟨h1, h2, fun _ h => h⟩
    · rw [paths_word_sep w t' h1 h2] at hp
      rcases List.mem_cons.1 hp with rfl | hp
      · exact ⟨h1, h2, fun x hx => by simp [hx]⟩
      · obtain ⟨a, b, c⟩ := ih t' (by simp at hn; omega) hp
        exact ⟨a, b, fun x hx => by simp [c x hx]⟩

/-! Joining -/

theorem join_cons (sep p : List Nat) (ps : List (List Nat)) :
    sep.intercalate (p :: ps) = p ++ (if ps = [] then [] else sep ++ sep.intercalate ps) := by
  cases ps with
  | nil => simp [List.intercalate, List.intersperse]
  | cons q ps => simp [List.intercalate, List.intersperse]

theorem join_snoc (sep v : List Nat) (ps : List (List Nat)) :
    sep.intercalate (ps ++ [v]) = (if ps = [] then [] else sep.intercalate ps ++ sep) ++ v := by
  induction ps with
  | nil => simp [List.intercalate, List.intersperse]
  | cons p ps ih =>
    rw [List.cons_append, join_cons, if_neg (by simp), ih, join_cons sep p]
    by_cases h : ps = []
    · simp [h]
    · simp [h]

theorem join_eq_nil {sep : List Nat} (ps : List (List Nat)) (h : ∀ p ∈ ps, p ≠ []) : sep.intercalate ps = [] ↔ ps = [] := by
  cases ps with
  | nil => simp [List.intercalate, List.intersperse]
  | cons p ps =>
    rw [join_cons]
    have := h p (by simp)
    simp [this]

theorem paths_join (ps : List (List Nat)) (h : ∀ p ∈ ps, p ≠ [] ∧ 59 ∉ p) : paths ([59].intercalate ps) = ps := by
  induction ps with
  | nil => rfl
  | cons p ps ih =>
    obtain ⟨h1, h2⟩ := h p (by simp)
    rw [join_cons]
    split
    · rename_i e
      rw [List.append_nil, paths_word p h1 h2, e]
    · rw [List.singleton_append, paths_word_sep p _ h1 h2, ih fun q hq => h q (by simp [hq])]

theorem append_join (qs : List (List Nat)) (h : ∀ p ∈ qs, p ≠ []) (t : List Nat) :
    append (utf8 ([59].intercalate qs)) (utf8 t) = utf8 ([59].intercalate (qs ++ [t])) := by
  have e59 : utf8 [59] = [59] := rfl
  unfold append
  rw [join_snoc]
  by_cases hq : qs = []
  · subst hq
    simp [List.intercalate, List.intersperse, utf8_nil]
  · have : utf8 ([59].intercalate qs) ≠ [] := fun e => hq ((join_eq_nil qs h).1 (utf8_eq_nil.1 e))
    rw [if_pos this, if_neg hq, utf8_append, utf8_append, e59]

theorem joinArgs_ne (value : List Nat) (hv : value ≠ []) (args : List (List Nat)) :
    joinArgs (utf8 value) (args.map utf8) = utf8 ([32].intercalate (value :: args)) := by
  have e32 : utf8 [32] = [32] := rfl
  induction args generalizing value with
  | nil => simp [joinArgs, List.intercalate, List.intersperse]
  | cons a as ih =>
    have hne : utf8 value ≠ [] := fun e => hv (utf8_eq_nil.1 e)
    rw [List.map_cons, joinArgs, if_pos hne]
    have : utf8 value ++ [32] ++ utf8 a = utf8 (value ++ [32] ++ a) := by rw [utf8_append, utf8_append, e32]
    have hC : ¬ (a :: as = []) := by simp
    rw [this, ih _ (by simp), join_cons, join_cons [32] value, if_neg hC, join_cons [32] a]
    simp

theorem joinArgs_eq (args : List (List Nat)) : joinArgs [] (args.map utf8) = utf8 (given args) := by
  unfold given
  induction args with
  | nil => rfl
  | cons a as ih =>
    rw [List.map_cons, joinArgs]
    simp only [ne_eq, not_true_eq_false, if_false, List.nil_append]
    by_cases ha : a = []
    · subst ha
      rw [List.dropWhile_cons_of_pos (by simp)]
      exact ih
    · rw [List.dropWhile_cons_of_neg (by simpa using ha)]
      exact joinArgs_ne a ha as

theorem given_text (args : List (List Nat)) (h : ∀ a ∈ args, ∀ c ∈ a, IsText c) : ∀ c ∈ given args, IsText c := by
  have key : ∀ as : List (List Nat), (∀ a ∈ as, ∀ c ∈ a, IsText c) → ∀ c ∈ [32].intercalate as, IsText c := by
    intro as
    induction as with
    | nil => intro _ c hc; simp [List.intercalate, List.intersperse] at hc
    | cons a as ih =>
      intro h c hc
      rw [join_cons] at hc
      rcases List.mem_append.1 hc with hc | hc
      · exact h a (by simp) c hc
      · split at hc
        · cases hc
        · rcases List.mem_append.1 hc with hc | hc
          · rw [List.mem_singleton] at hc
            subst hc
            decide
          · exact ih (fun b hb => h b (by simp [hb])) c hc
  exact key _ fun a ha => h a ((List.dropWhile_suffix _).mem ha)

theorem sep_mem (v : List Nat) (hv : ∀ c ∈ v, IsText c) : 59 ∈ utf8 v ↔ 59 ∈ v := by
  induction v with
  | nil => simp [utf8]
  | cons c v ih =>
    rw [utf8_cons, List.mem_append, List.mem_cons, ih fun x hx => hv x (by simp [hx])]
    have : 59 ∈ specUtf8 c ↔ 59 = c := by
      unfold specUtf8
      split
      · simp
      · split
        · simp; omega
        · split
          · simp; omega
          · simp; omega
    rw [this]

/-! The scan -/

theorem scan_eq (lower : Nat → Nat) (inst : Bool) (v : List Nat) (hv : ∀ c ∈ v, IsText c) (ps : List (List Nat))
    (hps : ∀ p ∈ ps, p ≠ [] ∧ ∀ c ∈ p, IsText c) (qs : List (List Nat)) (hqs : ∀ p ∈ qs, p ≠ []) (b : Bool) :
    scan lower inst (utf8 v) (utf8 ([59].intercalate qs), b) (ps.map utf8) =
      if inst = true ∧ ∃ p ∈ ps, Same lower p v then none
      else some (utf8 ([59].intercalate (qs ++ uninstall lower ps v)), b || decide (∃ p ∈ ps, Same lower p v)) := by
  induction ps generalizing qs b with
  | nil => simp [scan, uninstall]
  | cons p ps ih =>
    obtain ⟨hp1, hp2⟩ := hps p (by simp)
    have ih := ih fun q hq => hps q (by simp [hq])
    rw [List.map_cons, scan, equal_iff lower p v hp2 hv]
    by_cases hs : Same lower p v
    · rw [decide_eq_true hs]
      have hex : ∃ q ∈ p :: ps, Same lower q v := ⟨p, by simp, hs⟩
      cases inst with
      | true =>
        have hC : true = true ∧ ∃ q ∈ p :: ps, Same lower q v := ⟨rfl, hex⟩
        rw [if_pos hC]
        rfl
      | false =>
        simp only [if_true, Bool.false_eq_true, if_false, false_and]
        rw [ih qs hqs true]
        rw [decide_eq_true hex]
        simp [uninstall, hs]
    · rw [decide_eq_false hs]
      have hex : (∃ q ∈ p :: ps, Same lower q v) ↔ ∃ q ∈ ps, Same lower q v := by simp [hs]
      simp only [Bool.false_eq_true, if_false, hex]
      rw [append_join qs hqs, ih (qs ++ [p]) (by
        intro q hq
        rcases List.mem_append.1 hq with hq | hq
        · exact hqs q hq
        · simp at hq; subst hq; exact hp1)]
      have : uninstall lower (p :: ps) v = p :: uninstall lower ps v := by simp [uninstall, hs]
      rw [this, List.append_assoc, List.singleton_append]

theorem get_stored {reg : Option (List Nat)} {text : List Nat} (h : Stored reg text) : get reg = utf8 text := by
  obtain ⟨h1, ⟨rfl, rfl⟩ | rfl⟩ := h
  · rfl
  · exact (Utf.C02_utf16_roundtrip text h1).1

theorem list_stored {reg : Option (List Nat)} {text : List Nat} (h : Stored reg text) : list reg = (paths text).map utf8 := by
  unfold list
  rw [get_stored h]
  exact tokens_utf8 _ text (Nat.le_refl _) h.1

theorem set_stored (reg : Option (List Nat)) (text : List Nat) (h : ∀ c ∈ text, IsText c) :
    ∃ r, set true reg (utf8 text) = (true, r) ∧ Stored r text := by
  refine ⟨_, rfl, h, .inr ?_⟩
  show some _ = some _
  exact congrArg some (Utf.C02_utf8_roundtrip text h).1

theorem uninstall_none (lower : Nat → Nat) (ps : List (List Nat)) (v : List Nat) (h : ¬ ∃ p ∈ ps, Same lower p v) : uninstall lower ps v = ps := by
  unfold uninstall
  rw [List.filter_eq_self]
  intro p hp
  have : ¬ Same lower p v := fun e => h ⟨p, hp, e⟩
  simpa using this

theorem change_eq (lower : Nat → Nat) (w : Bool) {reg : Option (List Nat)} {text : List Nat} (h : Stored reg text) (inst : Bool)
    (args : List (List Nat)) (hne : args ≠ []) (ht : ∀ a ∈ args, ∀ c ∈ a, IsText c) (hs : 59 ∉ given args) :
    changeValue lower w reg inst (args.map utf8) =
      if inst = true ∧ ∃ p ∈ paths text, Same lower p (given args) then (false, .already (utf8 (given args)), reg)
      else if inst = false ∧ ¬ ∃ p ∈ paths text, Same lower p (given args) then (false, .notInstalled (utf8 (given args)), reg)
      else store w reg inst (utf8 (given args))
        (utf8 ([59].intercalate (if inst = true then paths text ++ [given args] else uninstall lower (paths text) (given args)))) := by
  have hv := given_text args ht
  have hp : ∀ p ∈ paths text, p ≠ [] ∧ ∀ c ∈ p, IsText c := fun p hp => by
    obtain ⟨a, -, c⟩ := paths_mem _ text p (Nat.le_refl _) hp
    exact ⟨a, fun x hx => h.1 x (c x hx)⟩
  have hscan := scan_eq lower inst (given args) hv (paths text) hp [] (by simp) false
  have e0 : utf8 ([59].intercalate []) = [] := rfl
  rw [e0, List.nil_append, Bool.false_or] at hscan
  unfold changeValue
  rw [if_neg (by simpa using hne), joinArgs_eq, if_neg (by rw [sep_mem _ hv]; exact hs), get_stored h,
    tokens_utf8 _ text (Nat.le_refl _) h.1, hscan]
  by_cases hex : ∃ p ∈ paths text, Same lower p (given args)
  · cases inst with
    | true => rw [if_pos ⟨rfl, hex⟩, if_pos ⟨rfl, hex⟩]
    | false =>
      rw [if_neg (by simp), if_neg (by simp), if_neg (fun h => h.2 hex)]
      simp only [decide_eq_true hex]
      simp
  · rw [if_neg (fun h => hex h.2), if_neg (fun h => hex h.2), decide_eq_false hex, uninstall_none lower _ _ hex]
    cases inst with
    | true =>
      have := append_join (paths text) (fun p h' => (hp p h').1) (given args)
      simp [this]
    | false => simp [hex]

end Clink.Scripts
