import Verif.Spec.LineWords
import Verif.Proof.WordsUnique

/-! Lemmas for the words of a line. -/

namespace Clink.Tokens

open Utf (more IsText specUtf8)
open Doskey (peek next Lookup)
open Doskey.Spec (flat)
open Tokens.Spec

def toWord (w : LineWord) : Word := ⟨w.offset, w.length, w.command, w.isAlias, w.redirArg, w.quoted, w.delim⟩

theorem flat_bytes {cs : List Nat} (hcs : ∀ c ∈ cs, IsText c) : ∀ b ∈ flat cs, b < 256 := by
  intro b hb
  obtain ⟨c, hc, hbc⟩ := List.mem_flatMap.1 hb
  have hct := hcs c hc
  unfold IsText at hct
  unfold specUtf8 at hbc
  split at hbc
  · simp at hbc; omega
  · split at hbc
    · simp at hbc; omega
    · split at hbc
      · simp at hbc; omega
      · simp at hbc; omega

theorem mem_flat_ascii {b : Nat} (hb : b < 128) : ∀ ws : List Nat, b ∈ flat ws ↔ b ∈ ws := by
  intro ws
  induction ws with
  | nil => simp [flat]
  | cons c ws ih =>
    rw [flat_cons, List.mem_append, ih, List.mem_cons]
    have : b ∈ specUtf8 c ↔ b = c := by
      unfold specUtf8
      split
      · simp
      · split
        · simp; omega
        · split
          · simp; omega
          · simp; omega
    rw [this]

theorem flagLoop_text (n : Nat) : ∀ ws : List Nat, (∀ c ∈ ws, IsText c) →
    (∃ a b, ws = a ++ 58 :: b ∧ 58 ∉ a ∧ flagLoop n (flat ws) = (some (n - (flat b).length), false)) ∨
    58 ∉ ws ∧ flagLoop n (flat ws) = (none, decide (ws ≠ [])) := by
  intro ws
  induction ws with
  | nil =>
    intro _
    exact .inr ⟨by simp, by rw [flagLoop, dif_neg (by decide)]; rfl⟩
  | cons c ws ih =>
    intro h
    have hw : ∀ x ∈ ws, IsText x := fun x hx => h x (by simp [hx])
    have hc0 : c ≠ 0 := by have := h c (by simp); unfold IsText at this; omega
    rw [flagLoop, dif_pos (more_cons h), peek_cons h, next_cons h, if_neg hc0]
    by_cases hc : c = 58
    · subst hc
      rw [if_pos rfl]
      exact .inl ⟨[], ws, rfl, by simp, rfl⟩
    · rw [if_neg hc]
      cases ws with
      | nil =>
        rw [if_neg (by decide)]
        exact .inr ⟨by simp; omega, rfl⟩
      | cons d ws =>
        rw [if_pos (more_cons hw)]
        rcases ih hw with ⟨a, b, h1, h2, h3⟩ | ⟨h1, h2⟩
        · refine .inl ⟨c :: a, b, by rw [h1]; rfl, by simp [h2]; omega, h3⟩
        · refine .inr ⟨?_, by rw [h2]; simp⟩
          rw [List.mem_cons, not_or]
          exact ⟨fun e => hc e.symm, h1⟩

theorem flat_zero {ws : List Nat} (h : ∀ c ∈ ws, IsText c) : 0 ∉ flat ws := by
  rw [mem_flat_ascii (by decide)]
  intro h0
  have := h 0 h0
  unfold IsText at this; omega

theorem takeWhile_61 (l : List Nat) : ∃ r, l = List.replicate (l.takeWhile (· == 61)).length 61 ++ r ∧ r.head? ≠ some 61 := by
  induction l with
  | nil => exact ⟨[], by simp⟩
  | cons c l ih =>
    by_cases hc : c = 61
    · subst hc
      obtain ⟨r, h1, h2⟩ := ih
      refine ⟨r, ?_, h2⟩
      rw [List.takeWhile_cons_of_pos (by rfl), List.length_cons, List.replicate_succ, List.cons_append, ← h1]
    · refine ⟨c :: l, ?_, by simpa using hc⟩
      rw [List.takeWhile_cons_of_neg (by simpa using hc)]; rfl

theorem mkWord_eq {o n : Nat} {a b c : Bool} {d : Nat} (ho : o < 65536) (hn : n < 65536) (hd : d < 256) :
    mkWord o n a b c d = toWord ⟨o, n, a, b, c, false, d⟩ := by
  unfold mkWord toWord
  rw [Nat.mod_eq_of_lt ho, Nat.mod_eq_of_lt hn, Nat.mod_eq_of_lt hd]

theorem getD_some {l : List Nat} {i x : Nat} (hx : x ≠ 0) : l.getD i 0 = x ↔ l[i]? = some x := by
  rw [List.getD_eq_getElem?_getD]
  cases h : l[i]? with
  | none => simp; omega
  | some y => simp

theorem tokenWords_spec {buffer : List Nat} {base stop : Nat} {depr first : Bool} {t : Tok} {w : List Nat}
    (h : slice buffer (t.offset + base) t.length = flat w) (hw : ∀ c ∈ w, IsText c) (hl : t.offset + base + t.length ≤ buffer.length)
    (hb : buffer.length < 65536) (hd : t.delim < 256) :
    ∃ ls, TokenWords buffer stop depr first (t.offset + base) t.length t.delim t.redirArg ls ∧
      tokenWords buffer base stop depr first t = ls.map toWord := by
  obtain ⟨off, len, delim, red⟩ := t
  dsimp only at h hl hd ⊢
  have hlen : (flat w).length = len := by rw [← h]; simp [slice]; omega
  unfold tokenWords
  dsimp only
  generalize hO : off + base = o at *
  by_cases hp : 2 ≤ o ∧ buffer.getD (o - 1) 0 = 43 ∧ buffer.getD (o - 2) 0 = 32
  · have he : Extent buffer o len (o - 1) (len + 1) := by
      unfold Extent
      rw [if_pos ⟨hp.1, (getD_some (by decide)).1 hp.2.2, (getD_some (by decide)).1 hp.2.1⟩]
      omega
    simp only [hp, and_self, if_true]
    have hs : slice buffer (o - 1) (len + 1) = 43 :: slice buffer o len := by
      have h43 := (getD_some (by decide)).1 hp.2.1
      unfold slice
      have hlt : o - 1 < buffer.length := by omega
      rw [List.drop_eq_getElem_cons hlt]
      rw [List.getElem?_eq_getElem hlt] at h43
      rw [Option.some.inj h43, List.take_succ_cons, show o - 1 + 1 = o by omega]
    have hnf : ¬ IsFlag (slice buffer (o - 1) (len + 1)) := by
      rw [hs]; simp [IsFlag]
    have hh : (List.take (len + 1) (List.drop (o - 1) buffer)).headD 0 = 43 := by
      have := hs
      unfold slice at this
      rw [this]; rfl
    refine ⟨_, .plain he (.inr (.inr hnf)), ?_⟩
    simp only [hh]
    rw [if_neg (by simp), mkWord_eq (by omega) (by omega) hd]
    rfl
  · have he : Extent buffer o len o len := by
      unfold Extent
      rw [if_neg]
      · exact ⟨rfl, rfl⟩
      · rintro ⟨h1, h2, h3⟩
        exact hp ⟨h1, (getD_some (by decide)).2 h3, (getD_some (by decide)).2 h2⟩
    simp only [hp, if_false]
    have hs : List.take len (List.drop o buffer) = flat w := h
    simp only [hs]
    have hhead : ∀ x, x ≠ 0 → ((flat w).headD 0 = x ↔ (flat w).head? = some x) := by
      intro x hx
      cases flat w with
      | nil => simp; omega
      | cons y l => simp
    have hz : len > 1 → (flat w).headD 0 ≠ 0 := by
      intro h1 h2
      cases hf : flat w with
      | nil => rw [hf] at hlen; simp at hlen; omega
      | cons y l =>
        rw [hf] at h2
        simp at h2
        exact flat_zero hw (by rw [hf, h2]; simp)
    have hfl : (red = false ∧ depr = false ∧ len > 1 ∧ ((flat w).headD 0 = 45 ∨ (flat w).headD 0 = 47 ∨ (flat w).headD 0 = 0)) ↔
        red = false ∧ depr = false ∧ IsFlag (flat w) := by
      unfold IsFlag
      rw [hlen]
      constructor
      · rintro ⟨h1, h2, h3, h4⟩
        refine ⟨h1, h2, h3, ?_⟩
        rcases h4 with h4 | h4 | h4
        · exact .inl ((hhead _ (by decide)).1 h4)
        · exact .inr ((hhead _ (by decide)).1 h4)
        · exact absurd h4 (hz h3)
      · rintro ⟨h1, h2, h3, h4⟩
        refine ⟨h1, h2, h3, ?_⟩
        rcases h4 with h4 | h4
        · exact .inl ((hhead _ (by decide)).2 h4)
        · exact .inr (.inl ((hhead _ (by decide)).2 h4))
    by_cases hf : red = false ∧ depr = false ∧ IsFlag (flat w)
    · rw [if_pos (hfl.2 hf)]
      obtain ⟨rfl, rfl, hf⟩ := hf
      rcases flagLoop_text len w hw with ⟨a, b, h1, h2, h3⟩ | ⟨h1, h2⟩
      · rw [h3]
        dsimp only
        have hab : flat w = flat a ++ 58 :: flat b := by rw [h1, flat_append, flat_cons]; rfl
        have hlab : (flat a).length + 1 + (flat b).length = len := by rw [← hlen, hab]; simp; omega
        refine ⟨_, .colon (a := flat a) (b := flat b) he rfl rfl (by rw [h]; exact hf) (by rw [h, hab]) (by rw [mem_flat_ascii (by decide)]; exact h2), ?_⟩
        rw [mkWord_eq (by omega) (by omega) (by omega), mkWord_eq (by omega) (by omega) hd]
        rw [show len - (flat b).length = (flat a).length + 1 by omega, show len - ((flat a).length + 1) = (flat b).length by omega]
        rfl
      · rw [h2]
        have hne : w ≠ [] := by rintro rfl; simp [IsFlag, flat] at hf
        simp only [hne, ne_eq, not_false_eq_true, decide_true, if_true]
        obtain ⟨r, h3, h4⟩ := takeWhile_61 (List.drop (o + len) (List.take stop buffer))
        refine ⟨_, .flag he rfl rfl (by rw [h]; exact hf) (by rw [h, mem_flat_ascii (by decide)]; exact h1) h3 h4, ?_⟩
        have hk : (List.takeWhile (· == 61) (List.drop (o + len) (List.take stop buffer))).length ≤ buffer.length - (o + len) := by
          have := (List.takeWhile_sublist (l := List.drop (o + len) (List.take stop buffer)) (· == 61)).length_le
          simp at this ⊢; omega
        rw [mkWord_eq (by omega) (by omega) hd]
        rfl
    · rw [if_neg (fun h5 => hf (hfl.1 h5))]
      refine ⟨_, .plain he ?_, ?_⟩
      · rw [h]
        cases depr
        · cases red
          · exact .inr (.inr fun h5 => hf ⟨rfl, rfl, h5⟩)
          · exact .inr (.inl rfl)
        · exact .inl rfl
      · rw [mkWord_eq (by omega) (by omega) hd]
        rfl

/-! Where the words are. -/

theorem Spec.NextWord.slice {after : Nat} {cw redir fst cont redir' : Bool} {pos : Nat} {text rest : List Nat} {t : Nat × Nat × Nat × Bool}
    (h : NextWord after cw redir fst cont pos text t rest redir') :
    ∃ a w b, text = a ++ (w ++ b) ∧ t.1 = pos + (flat a).length ∧ t.2.1 = (flat w).length := by
  induction h with
  | @word redir fst cont pos s w r delim rest redir' h1 h2 h3 h4 => exact ⟨s, w, r, rfl, rfl, rfl⟩
  | @redirection redir fst cont pos s op r redir' t rest redir'' h1 h2 h3 ih =>
    obtain ⟨a, w, b, rfl, h5, h6⟩ := ih
    refine ⟨s ++ (op ++ a), w, b, by simp, ?_, h6⟩
    rw [h5, ← List.append_assoc, flat_append (s ++ op), List.length_append]
    omega

theorem Spec.WordsOf.slice {after n : Nat} {cw redir fst : Bool} {text : List Nat} {ts : List (Nat × Nat × Nat × Bool)}
    (h : WordsOf after n cw redir fst text ts) : (flat text).length ≤ n → ∀ t ∈ ts, ∃ a w b, text = a ++ (w ++ b) ∧
      t.1 = n - (flat text).length + (flat a).length ∧ t.2.1 = (flat w).length := by
  induction h with
  | nil => intro _ t ht; cases ht
  | lost => intro _ t ht; cases ht
  | @cons cw redir fst text t rest redir' ts h1 h2 h3 h4 ih =>
    intro hn x hx
    rcases List.mem_cons.1 hx with rfl | hx
    · exact h2.slice
    · obtain ⟨y, hy⟩ := h2.shorter.1
      have hl : (flat text).length = (flat y).length + (flat rest).length := by rw [← hy, flat_append, List.length_append]
      obtain ⟨a, w, b, h5, h6, h7⟩ := ih (by omega) x hx
      refine ⟨y ++ a, w, b, by rw [← hy, h5]; simp, ?_, h7⟩
      rw [h6, flat_append, List.length_append]
      omega

theorem tokens_delim (n after : Nat) : ∀ (k : Nat) (t : WordTok), t.iter.length < k → ∀ ts, tokens n after t = some ts → ∀ x ∈ ts, x.delim < 256 := by
  intro k
  induction k with
  | zero => intro t h; omega
  | succ k ih =>
    intro t hk ts h x hx
    rw [tokens] at h
    split at h
    · dsimp only at h
      split at h
      · cases h; cases hx
      · split at h
        · rename_i hlt
          obtain ⟨ts', h1, h2⟩ := Option.map_eq_some_iff.1 h
          subst h2
          rcases List.mem_cons.1 hx with rfl | hx
          · unfold WordTok.next
            dsimp only
            split <;> omega
          · exact ih _ (by omega) ts' h1 x hx
        · cases h
    · cases h; cases hx

theorem allTokenWords_spec {buffer : List Nat} {base stop : Nat} {depr : Bool} (hb : buffer.length < 65536) : ∀ (ts : List (Nat × Nat × Nat × Bool)) (first : Bool),
    (∀ t ∈ ts, t.2.2.1 < 256 ∧ t.1 + base + t.2.1 ≤ buffer.length ∧ ∃ w, (∀ c ∈ w, IsText c) ∧ Spec.slice buffer (t.1 + base) t.2.1 = flat w) →
    ∃ ls, PieceWords buffer base stop depr first ts ls ∧
      allTokenWords buffer base stop depr first (ts.map fun x => ⟨x.1, x.2.1, x.2.2.1, x.2.2.2⟩) = ls.map toWord := by
  intro ts
  induction ts with
  | nil => intro first _; exact ⟨[], .nil, rfl⟩
  | cons t ts ih =>
    intro first h
    obtain ⟨h1, h2, w, h3, h4⟩ := h t (by simp)
    obtain ⟨ls, h5, h6⟩ := ih false (fun x hx => h x (by simp [hx]))
    obtain ⟨ls', h7, h8⟩ := tokenWords_spec (buffer := buffer) (base := base) (stop := stop) (depr := depr) (first := first)
      (t := ⟨t.1, t.2.1, t.2.2.1, t.2.2.2⟩) h4 h3 h2 hb h1
    refine ⟨ls' ++ ls, .cons h7 h5, ?_⟩
    simp only [List.map_cons, allTokenWords, List.map_append, h6, h8]

/-- The words of a text without an alias. -/
theorem start_words {first : Bool} {text : List Nat} {cmd : CmdState} (ht : ∀ c ∈ text, IsText c) (hr : cmd.onlyRem = false) (after : Nat) :
    ∃ ts, WordsOf after (flat text).length first false first text ts ∧
      tokens (flat text).length after (.start cmd (flat text) first) = some (ts.map fun x => ⟨x.1, x.2.1, x.2.2.1, x.2.2.2⟩) :=
  tokens_words (n := (flat text).length) (after := after) _ text false first (.start cmd (flat text) first) (Nat.lt_succ_self _) ht rfl rfl
    (by
      refine ⟨nextWord_first _, fun h => ?_, fun h => ?_, fun h _ => ?_, fun h h' => ?_⟩
      · subst h; rfl
      · subst h; exact hr
      · subst h; exact ⟨rfl, rfl⟩
      · subst h; cases h') (fun h => ⟨h, rfl⟩) (Nat.le_refl _)

theorem text_words {buffer : List Nat} {base stop : Nat} {depr first : Bool} {text : List Nat} {cmd : CmdState} (hb : buffer.length < 65536)
    (ht : ∀ c ∈ text, IsText c) (hs : Spec.slice buffer base (flat text).length = flat text) (hl : base + (flat text).length ≤ buffer.length)
    (hr : cmd.onlyRem = false) (after : Nat) :
    ∃ ts ls, WordsOf after (flat text).length first false first text ts ∧ PieceWords buffer base stop depr first ts ls ∧
      (tokens (flat text).length after (.start cmd (flat text) first)).map (allTokenWords buffer base stop depr first) = some (ls.map toWord) := by
  obtain ⟨ts, h1, h2⟩ := start_words (first := first) ht hr after
  have hd := tokens_delim _ _ _ _ (Nat.lt_succ_self _) _ h2
  have hsl := h1.slice (Nat.le_refl _)
  obtain ⟨ls, h3, h4⟩ := allTokenWords_spec (buffer := buffer) (base := base) (stop := stop) (depr := depr) hb ts first (by
    intro t htt
    obtain ⟨a, w, b, h5, h6, h7⟩ := hsl t htt
    have h8 : (flat text).length = (flat a).length + ((flat w).length + (flat b).length) := by
      rw [h5, flat_append, flat_append]; simp
    refine ⟨hd _ (List.mem_map.2 ⟨t, htt, rfl⟩), by omega, w, fun c hc => ht c (by rw [h5]; simp [hc]), ?_⟩
    have h9 : buffer.drop base = flat text ++ buffer.drop (base + (flat text).length) := by
      rw [← List.drop_drop]
      rw [← List.take_append_drop (flat text).length (buffer.drop base)]
      unfold Spec.slice at hs
      rw [hs]
      simp
    unfold Spec.slice
    rw [h6, h7, Nat.sub_self, Nat.zero_add, Nat.add_comm, ← List.drop_drop, h9, h5, flat_append, flat_append]
    simp)
  exact ⟨ts, ls, h1, h3, by
    show Option.map _ (tokens (flat text).length after (.start cmd (flat text) first)) = _
    rw [h2, Option.map_some, h4]⟩

/-! Aliases. -/

theorem aliasLoop (enh : Bool) : ∀ (l : List Nat) (k : Nat), aliasAllowedLoop enh k l = true ↔
    k = 0 ∧ l = [] ∨ enh = true ∧ ∃ j s x, l = List.replicate j 32 ++ s :: x ∧ IsSep s ∧ k + j ≤ 1 := by
  intro l
  induction l with
  | nil => intro k; simp [aliasAllowedLoop]
  | cons c l ih =>
    intro k
    unfold aliasAllowedLoop
    by_cases hc : c = 38 ∨ c = 124
    · rw [if_pos hc]
      simp only [Bool.and_eq_true, decide_eq_true_eq, reduceCtorEq, and_false, false_or]
      refine and_congr_right fun _ => ⟨fun h => ⟨0, c, l, rfl, hc, h⟩, ?_⟩
      rintro ⟨j, s, x, h1, h2, h3⟩; omega
    · rw [if_neg hc]
      by_cases h32 : c = 32
      · subst h32
        rw [if_neg (by simp), ih]
        simp only [reduceCtorEq, and_false, false_or, Nat.add_eq_zero_iff, Nat.one_ne_zero, false_and]
        refine and_congr_right fun _ => ⟨?_, ?_⟩
        · rintro ⟨j, s, x, h1, h2, h3⟩
          exact ⟨j + 1, s, x, by rw [h1]; rfl, h2, by omega⟩
        · rintro ⟨j, s, x, h1, h2, h3⟩
          cases j with
          | zero =>
            obtain ⟨rfl, -⟩ := List.cons.inj h1
            unfold IsSep at h2; omega
          | succ j => exact ⟨j, s, x, (List.cons.inj h1).2, h2, by omega⟩
      · rw [if_pos h32]
        simp only [Bool.false_eq_true, reduceCtorEq, and_false, false_or, false_iff, not_and]
        rintro - ⟨j, s, x, h1, h2, h3⟩
        cases j with
        | zero =>
          obtain ⟨rfl, -⟩ := List.cons.inj h1
          exact hc h2
        | succ j => exact h32 (List.cons.inj h1).1

theorem aliasPlace_iff (enh : Bool) (before : List Nat) : aliasAllowedLoop enh 0 before.reverse = true ↔ AliasPlace enh before := by
  rw [aliasLoop]
  unfold AliasPlace
  simp only [true_and, List.reverse_eq_nil_iff, Nat.zero_add]
  refine or_congr_right (and_congr_right fun _ => ⟨?_, ?_⟩)
  · rintro ⟨j, s, x, h1, h2, h3⟩
    have h4 : before = (List.replicate j 32 ++ s :: x).reverse := by rw [← h1, List.reverse_reverse]
    refine ⟨x.reverse, s, h2, ?_⟩
    have : j = 0 ∨ j = 1 := by omega
    rcases this with rfl | rfl
    · left; rw [h4]; simp
    · right; rw [h4]; simp
  · rintro ⟨q, s, h1, rfl | rfl⟩
    · exact ⟨0, s, q.reverse, by simp, h1, by omega⟩
    · exact ⟨1, s, q.reverse, by simp, h1, by omega⟩

theorem specUtf8_blank {c : Nat} : (Blank c → specUtf8 c = [c]) ∧ (¬ Blank c → ∀ b ∈ specUtf8 c, ¬ Blank b) := by
  unfold Blank
  constructor
  · intro h
    unfold specUtf8
    rw [if_pos (by omega)]
  · intro h b hb
    unfold specUtf8 at hb
    split at hb
    · simp at hb; omega
    · split at hb
      · simp at hb; omega
      · split at hb
        · simp at hb; omega
        · simp at hb; omega

theorem takeWhile_nonblank (cs r : List Nat) (h : r = [] ∨ ∃ c x, r = c :: x ∧ Blank c) : (flat cs ++ r).takeWhile (fun c => c ≠ 32 ∧ c ≠ 9) = flat (nameOf cs) := by
  induction cs with
  | nil =>
    rcases h with rfl | ⟨c, x, rfl, hc⟩
    · rfl
    · rw [show flat [] ++ c :: x = c :: x from rfl, List.takeWhile_cons_of_neg (by unfold Blank at hc; simp; omega)]; rfl
  | cons c cs ih =>
    rw [flat_cons, List.append_assoc]
    by_cases hc : Blank c
    · rw [specUtf8_blank.1 hc]
      have h1 : ¬ (decide (c ≠ 32 ∧ c ≠ 9) = true) := by unfold Blank at hc; simp; omega
      rw [List.cons_append, List.takeWhile_cons_of_neg (p := fun c => decide (c ≠ 32 ∧ c ≠ 9)) h1]
      unfold nameOf
      rw [List.takeWhile_cons_of_neg (p := fun c => decide (c ≠ 32 ∧ c ≠ 9)) h1]
      rfl
    · have h1 : decide (c ≠ 32 ∧ c ≠ 9) = true := by unfold Blank at hc; simp; omega
      rw [List.takeWhile_append_of_pos, ih]
      · unfold nameOf
        rw [List.takeWhile_cons_of_pos (p := fun c => decide (c ≠ 32 ∧ c ≠ 9)) h1, flat_cons]
      · intro b hb
        have := specUtf8_blank.2 hc b hb
        unfold Blank at this
        simp; omega

theorem takeWhile_split {p : Nat → Bool} {a b : List Nat} (ha : ∀ x ∈ a, p x = true) (hb : b = [] ∨ ∃ c r, b = c :: r ∧ p c = false) :
    (a ++ b).takeWhile p = a := by
  rw [List.takeWhile_append_of_pos ha]
  rcases hb with rfl | ⟨c, r, rfl, hc⟩
  · simp
  · rw [List.takeWhile_cons_of_neg (by simp [hc])]; simp

theorem AliasCommand.name {lookup : Lookup} {enh : Bool} {before cmd name bl t : List Nat} (h : AliasCommand lookup enh before cmd name bl t) :
    nameOf cmd = name := by
  obtain ⟨rfl, h1, h2, h3, h4, -⟩ := h
  refine takeWhile_split (fun x hx => ?_) ?_
  · have := h2 x hx; unfold Blank at this; simp; omega
  · cases bl with
    | nil =>
      cases t with
      | nil => exact .inl rfl
      | cons c t => exact absurd rfl (h4 c t rfl).2
    | cons c bl =>
      have := h3 c (by simp)
      exact .inr ⟨c, _, rfl, by unfold Blank at this; simp; omega⟩

/-- The name of a command, the blanks after it, and the rest. -/
theorem name_blanks (cmd : List Nat) : ∃ bl t, cmd = nameOf cmd ++ (bl ++ t) ∧ (∀ c ∈ nameOf cmd, ¬ Blank c) ∧ (∀ c ∈ bl, Blank c) ∧
    ∀ c r, t = c :: r → ¬ Blank c ∧ bl ≠ [] := by
  have hd : cmd = nameOf cmd ++ cmd.dropWhile (fun c => c ≠ 32 ∧ c ≠ 9) := (List.takeWhile_append_dropWhile).symm
  refine ⟨(cmd.dropWhile (fun c => c ≠ 32 ∧ c ≠ 9)).takeWhile (fun c => c = 32 ∨ c = 9), (cmd.dropWhile (fun c => c ≠ 32 ∧ c ≠ 9)).dropWhile (fun c => c = 32 ∨ c = 9),
    ?_, ?_, ?_, ?_⟩
  · rw [List.takeWhile_append_dropWhile]; exact hd
  · intro c hc
    have := List.all_eq_true.1 List.all_takeWhile c hc
    unfold Blank; simp at this; omega
  · intro c hc
    have := List.all_eq_true.1 List.all_takeWhile c hc
    unfold Blank; simpa using this
  · intro c r h
    have h1 : ¬ Blank c := by
      have := List.head?_dropWhile_not (fun c => decide (c = 32 ∨ c = 9)) (cmd.dropWhile (fun c => c ≠ 32 ∧ c ≠ 9))
      rw [h] at this
      simp only [List.head?_cons] at this
      unfold Blank; simpa using this
    refine ⟨h1, ?_⟩
    intro h2
    have h3 := List.head?_dropWhile_not (fun c => decide (c ≠ 32 ∧ c ≠ 9)) cmd
    have h4 : cmd.dropWhile (fun c => c ≠ 32 ∧ c ≠ 9) = c :: r := by
      rw [← List.takeWhile_append_dropWhile (p := fun c => decide (c = 32 ∨ c = 9)) (l := cmd.dropWhile (fun c => c ≠ 32 ∧ c ≠ 9)), h2, h]; rfl
    rw [h4] at h3
    simp only [List.head?_cons] at h3
    unfold Blank at h1; simp at h3; omega

theorem flat_blanks {bl : List Nat} (h : ∀ c ∈ bl, Blank c) : flat bl = bl := by
  induction bl with
  | nil => rfl
  | cons c bl ih =>
    rw [flat_cons, ih (fun x hx => h x (by simp [hx])), specUtf8_blank.1 (h c (by simp))]; rfl

theorem flat_head_nonblank {c : Nat} {t : List Nat} (h : ¬ Blank c) (ht : ∀ x ∈ c :: t, IsText x) : ∃ b r, flat (c :: t) = b :: r ∧ ¬ Blank b := by
  have hp := flat_pos ht
  cases hs : specUtf8 c with
  | nil =>
    exfalso
    unfold specUtf8 at hs
    split at hs
    · cases hs
    · split at hs
      · cases hs
      · split at hs <;> cases hs
  | cons b r =>
    refine ⟨b, r ++ flat t, by rw [flat_cons, hs]; rfl, specUtf8_blank.2 h b (by rw [hs]; simp)⟩

theorem slice_drop {buffer : List Nat} {o : Nat} {x : List Nat} (h : Spec.slice buffer o x.length = x) : buffer.drop o = x ++ buffer.drop (o + x.length) := by
  rw [← List.drop_drop, ← List.take_append_drop x.length (buffer.drop o)]
  unfold Spec.slice at h
  rw [h]; simp

theorem flat_nil_iff {cs : List Nat} (h : ∀ c ∈ cs, IsText c) : flat cs = [] ↔ cs = [] := by
  constructor
  · intro h1
    cases cs with
    | nil => rfl
    | cons c cs => have := flat_pos h; rw [h1] at this; simp at this
  · rintro rfl; rfl

theorem nameOf_text {cmd : List Nat} (h : ∀ c ∈ cmd, IsText c) : ∀ c ∈ nameOf cmd, IsText c :=
  fun c hc => h c ((List.takeWhile_sublist _).subset hc)

theorem commandWords_spec (lookup : Lookup) (enh : Bool) (depr : List Nat → Bool) {buffer : List Nat} {lineStop o n : Nat} {cmd : List Nat} {st : CmdState}
    (hst : st.onlyRem = false) (hb : buffer.length < 65536) (hls : lineStop ≤ buffer.length) (hn : o + n ≤ lineStop) (ht : ∀ c ∈ cmd, IsText c)
    (hs : Spec.slice buffer o n = flat cmd) : ∃ ls, CommandWords lookup enh depr buffer o cmd ls ∧
      commandWords lookup enh depr buffer lineStop st (o, n) = some (ls.map toWord) := by
  have hnl : (flat cmd).length = n := by rw [← hs]; simp [Spec.slice]; omega
  subst hnl
  have hname : ((buffer.drop o).take (flat cmd).length).takeWhile (fun c => c ≠ 32 ∧ c ≠ 9) = flat (nameOf cmd) := by
    have := takeWhile_nonblank cmd [] (.inl rfl)
    rw [List.append_nil] at this
    unfold Spec.slice at hs
    rw [hs, this]
  obtain ⟨bl, t, hc1, hc2, hc3, hc4⟩ := name_blanks cmd
  have hnt := nameOf_text ht
  have htt : ∀ c ∈ t, IsText c := fun c hc => ht c (by rw [hc1]; simp [hc])
  have hflat : flat cmd = flat (nameOf cmd) ++ (bl ++ flat t) := by
    refine (congrArg flat hc1).trans ?_
    rw [flat_append, flat_append, flat_blanks hc3]
  have hlen : (flat cmd).length = (flat (nameOf cmd)).length + (bl.length + (flat t).length) := by
    rw [hflat]; simp
  have hdrop := slice_drop hs
  have hdrop' : buffer.drop o = flat (nameOf cmd) ++ (bl ++ flat t) ++ buffer.drop (o + (flat cmd).length) := by rw [← hflat]; exact hdrop
  generalize hal : (flat (nameOf cmd) ≠ [] && aliasAllowed enh buffer o && hasAlias lookup (flat (nameOf cmd))) = isAlias
  have hiff : isAlias = true ↔ AliasCommand lookup enh (buffer.take o) cmd (nameOf cmd) bl t := by
    rw [← hal]
    simp only [ne_eq, Bool.and_eq_true, decide_eq_true_eq]
    unfold AliasCommand aliasAllowed hasAlias
    constructor
    · rintro ⟨⟨h1, h2⟩, h3⟩
      refine ⟨hc1, fun h => h1 ((flat_nil_iff hnt).2 h), hc2, hc3, hc4, ?_, ?_⟩
      · simp only [Bool.and_eq_true] at h2
        exact (aliasPlace_iff _ _).1 h2.2
      · cases hl : lookup (flat (nameOf cmd)) with
        | none => rw [hl] at h3; cases h3
        | some b =>
          rw [hl] at h3
          cases b with
          | nil => cases h3
          | cons x b => exact ⟨x :: b, rfl, by simp⟩
    · rintro ⟨-, h1, -, -, -, h2, b, h3, h4⟩
      refine ⟨⟨fun h => h1 ((flat_nil_iff hnt).1 h), ?_⟩, ?_⟩
      · simp only [Bool.and_eq_true, decide_eq_true_eq]
        refine ⟨?_, (aliasPlace_iff _ _).2 h2⟩
        cases hnm : nameOf cmd with
        | nil => exact absurd hnm h1
        | cons c nm =>
          obtain ⟨y, r, h5, h6⟩ := flat_head_nonblank (hc2 c (by rw [hnm]; simp)) (by rw [← hnm]; exact hnt)
          have h7 : buffer.drop o = y :: (r ++ (bl ++ flat t) ++ buffer.drop (o + (flat cmd).length)) := by
            rw [hdrop', hnm, h5]; simp
          have h8 : buffer.getD o 0 = y := by
            have := congrArg List.head? h7
            rw [List.head?_drop] at this
            rw [List.getD_eq_getElem?_getD, this]; rfl
          rw [h8]
          unfold Blank at h6; simp; omega
      · rw [h3]
        cases b with
        | nil => exact absurd rfl h4
        | cons => rfl
  unfold commandWords
  dsimp only
  rw [hname, hal]
  cases isAlias with
  | false =>
    have hna : ¬ ∃ name bl t, AliasCommand lookup enh (buffer.take o) cmd name bl t := by
      rintro ⟨name', bl', t', h⟩
      have hnm := AliasCommand.name h
      refine absurd (hiff.2 ?_) (by decide)
      obtain ⟨-, h1, -, -, -, h5, h6⟩ := h
      rw [← hnm] at h1 h6
      exact ⟨hc1, h1, hc2, hc3, hc4, h5, h6⟩
    simp only [Bool.false_eq_true, if_false, Nat.add_zero, Nat.sub_zero, Bool.not_false, List.nil_append, Nat.zero_le, and_true]
    rw [if_pos ⟨hn, by omega⟩]
    have hs' : (buffer.drop o).take (flat cmd).length = flat cmd := hs
    rw [hs']
    obtain ⟨ts, ls, h1, h2, h3⟩ := text_words (buffer := buffer) (base := o) (stop := o + (flat cmd).length) (depr := (decide (flat (nameOf cmd) ≠ []) && depr (flat (nameOf cmd))))
      (first := true) (cmd := st) hb ht hs (by omega) hst (buffer.getD (o + (flat cmd).length) 0)
    refine ⟨ls, .plain hna h1 ?_, h3⟩
    have he : (decide (flat (nameOf cmd) ≠ []) && depr (flat (nameOf cmd))) = decide (nameOf cmd ≠ [] ∧ depr (flat (nameOf cmd)) = true) := by
      have : decide (flat (nameOf cmd) ≠ []) = decide (nameOf cmd ≠ []) := decide_eq_decide.2 (not_congr (flat_nil_iff hnt))
      rw [this]
      cases depr (flat (nameOf cmd)) <;> simp
    rw [← he]
    exact h2
  | true =>
    have ha := hiff.1 rfl
    have hne : nameOf cmd ≠ [] := ha.2.1
    have hfne : flat (nameOf cmd) ≠ [] := fun h => hne ((flat_nil_iff hnt).1 h)
    have hd1 : decide (flat (nameOf cmd) ≠ []) = true := decide_eq_true hfne
    simp only [if_true, Bool.not_true, hd1, Bool.true_and]
    have hmk : mkWord o (flat (nameOf cmd)).length true true false (buffer.getD o 0) =
        toWord ⟨o, (flat (nameOf cmd)).length, true, true, false, false, buffer.getD o 0⟩ := by
      refine mkWord_eq (by omega) (by omega) ?_
      have h7 : buffer.drop o = flat cmd ++ buffer.drop (o + (flat cmd).length) := hdrop
      have h8 := congrArg List.head? h7
      rw [List.head?_drop] at h8
      rw [List.getD_eq_getElem?_getD, h8]
      have hb256 := flat_bytes ht
      cases hf : flat cmd with
      | nil =>
        exfalso
        have := (flat_nil_iff ht).1 hf
        rw [this] at hne; exact hne rfl
      | cons b r =>
        show b < 256
        exact hb256 b (by rw [hf]; simp)
    rw [hmk]
    have hX : (buffer.take lineStop).drop (o + (flat (nameOf cmd)).length) = bl ++ (flat t ++ (buffer.take lineStop).drop (o + (flat cmd).length)) := by
      have h7 : (buffer.take lineStop).drop o = flat cmd ++ (buffer.take lineStop).drop (o + (flat cmd).length) := by
        rw [List.drop_take, hdrop, List.take_append, List.drop_take]
        rw [List.take_of_length_le (by omega), Nat.sub_sub]
      have h8 : (buffer.take lineStop).drop o = flat (nameOf cmd) ++ (bl ++ flat t) ++ (buffer.take lineStop).drop (o + (flat cmd).length) := by
        rw [← hflat]; exact h7
      rw [← List.drop_drop, h8]
      simp
    rw [hX]
    cases t with
    | nil =>
      have hlb : (List.takeWhile (fun c => decide (c = 32 ∨ c = 9)) (bl ++ (flat [] ++ List.drop (o + (flat cmd).length) (List.take lineStop buffer)))).length ≥ bl.length := by
        rw [List.takeWhile_append_of_pos (fun x hx => by have := hc3 x hx; unfold Blank at this; simpa using this)]
        simp
      have hlt : (if o + (flat cmd).length ≤ lineStop ∧ o + ((flat (nameOf cmd)).length + (List.takeWhile (fun c => decide (c = 32 ∨ c = 9)) (bl ++ (flat [] ++ List.drop (o + (flat cmd).length) (List.take lineStop buffer)))).length) ≤ lineStop ∧
          (flat (nameOf cmd)).length + (List.takeWhile (fun c => decide (c = 32 ∨ c = 9)) (bl ++ (flat [] ++ List.drop (o + (flat cmd).length) (List.take lineStop buffer)))).length ≤ (flat cmd).length then
          (flat cmd).length - ((flat (nameOf cmd)).length + (List.takeWhile (fun c => decide (c = 32 ∨ c = 9)) (bl ++ (flat [] ++ List.drop (o + (flat cmd).length) (List.take lineStop buffer)))).length) else 0) = 0 := by
        have h9 : (flat ([] : List Nat)).length = 0 := rfl
        rw [h9] at hlen
        split <;> omega
      rw [hlt]
      refine ⟨_, .alias ha .nil .nil, ?_⟩
      rw [List.take_zero, tokens, if_neg (by simp [WordTok.start]; decide)]
      rfl
    | cons c t =>
      obtain ⟨hcb, hbl⟩ := hc4 c t rfl
      obtain ⟨y, r, h5, h6⟩ := flat_head_nonblank hcb htt
      have htw : List.takeWhile (fun c => decide (c = 32 ∨ c = 9)) (bl ++ (flat (c :: t) ++ List.drop (o + (flat cmd).length) (List.take lineStop buffer))) = bl := by
        refine takeWhile_split (fun x hx => by have := hc3 x hx; unfold Blank at this; simpa using this) (.inr ⟨y, r ++ List.drop (o + (flat cmd).length) (List.take lineStop buffer), by rw [h5]; rfl, ?_⟩)
        unfold Blank at h6; simp; omega
      rw [htw, if_pos ⟨by omega, by omega, by omega⟩, show (flat cmd).length - ((flat (nameOf cmd)).length + bl.length) = (flat (c :: t)).length by omega]
      have hsl : Spec.slice buffer (o + ((flat (nameOf cmd)).length + bl.length)) (flat (c :: t)).length = flat (c :: t) := by
        unfold Spec.slice
        rw [← List.drop_drop, hdrop', ← List.drop_drop]
        simp
      have hsl' : (buffer.drop (o + ((flat (nameOf cmd)).length + bl.length))).take (flat (c :: t)).length = flat (c :: t) := hsl
      rw [hsl']
      have hend : o + ((flat (nameOf cmd)).length + bl.length) + (flat (c :: t)).length = o + (flat cmd).length := by omega
      rw [hend]
      obtain ⟨ts, ls, h1, h2, h3⟩ := text_words (buffer := buffer) (base := o + ((flat (nameOf cmd)).length + bl.length)) (stop := o + (flat cmd).length)
        (depr := depr (flat (nameOf cmd))) (first := false) (cmd := st) hb htt hsl (by omega) hst (buffer.getD (o + (flat cmd).length) 0)
      refine ⟨_, .alias ha h1 (ws := ls) ?_, ?_⟩
      · have : (flat (nameOf cmd ++ bl)).length = (flat (nameOf cmd)).length + bl.length := by rw [flat_append, flat_blanks hc3]; simp
        rw [this]; exact h2
      · obtain ⟨x, h7, h8⟩ := Option.map_eq_some_iff.1 h3
        rw [h7, Option.map_some, h8]
        rfl

/-! Quotes. -/

theorem quoteLoop_spec : ∀ (k : Nat) (l : List Nat), l.length ≤ k → ∀ (i : Nat) (q : Bool) (last : Nat), last < i →
    ((quoteLoop i q last l).1 = false ∧ (quoteLoop i q last l).2 + 1 = i + l.length ↔
      l = [] ∧ q = false ∧ last + 1 = i ∨ ∃ y, l = y ++ [34] ∧ y.foldl Mode.step (if q then .quoted else .plain) = .quoted) := by
  intro k
  induction k with
  | zero =>
    intro l hl i q last hlast
    have : l = [] := List.length_eq_zero_iff.1 (by omega)
    subst this
    simp [quoteLoop]
  | succ k ih =>
    intro l hl i q last hlast
    match l with
    | [] => simp [quoteLoop]
    | [c] =>
      have hsn : (∃ y, [c] = y ++ [34] ∧ y.foldl Mode.step (if q then .quoted else .plain) = .quoted) ↔ c = 34 ∧ q = true := by
        constructor
        · rintro ⟨y, h1, h2⟩
          have hy : y = [] := by
            have h3 := congrArg List.length h1
            rw [List.length_append, List.length_singleton, List.length_singleton] at h3
            exact List.length_eq_zero_iff.1 (by omega)
          subst hy
          simp at h1 h2
          exact ⟨h1, h2⟩
        · rintro ⟨rfl, rfl⟩
          exact ⟨[], rfl, rfl⟩
      rw [hsn]
      unfold quoteLoop
      by_cases hc : c = 34
      · rw [if_pos hc]
        cases q <;> simp [hc]
      · rw [if_neg hc]
        simp [hc]
        omega
    | c :: d :: r =>
      simp only [List.length_cons] at hl
      have hsn : ∀ (m : Mode), (∃ y, c :: d :: r = y ++ [34] ∧ y.foldl Mode.step m = .quoted) ↔ ∃ y, d :: r = y ++ [34] ∧ y.foldl Mode.step (m.step c) = .quoted := by
        intro m
        constructor
        · rintro ⟨y, h1, h2⟩
          cases y with
          | nil => simp at h1
          | cons a y =>
            have h3 := (List.cons.inj h1).2
            obtain rfl := (List.cons.inj h1).1
            exact ⟨y, h3, h2⟩
        · rintro ⟨y, h1, h2⟩
          exact ⟨c :: y, by rw [h1]; rfl, h2⟩
      rw [hsn]
      unfold quoteLoop
      by_cases hc : c = 34
      · rw [if_pos hc]
        have := ih (d :: r) (by simp; omega) (i + 1) (!q) (if q then i else last) (by split <;> omega)
        rw [show i + (c :: d :: r).length = i + 1 + (d :: r).length by simp; omega, this]
        subst hc
        cases q <;> simp [Mode.step]
      · rw [if_neg hc]
        by_cases hcar : q = false ∧ c = 94
        · rw [if_pos hcar]
          obtain ⟨rfl, rfl⟩ := hcar
          have := ih r (by omega) (i + 2) false last (by omega)
          rw [show i + (94 :: d :: r).length = i + 2 + r.length by simp; omega, this]
          have h1 : Mode.step (if (false : Bool) = true then .quoted else .plain) 94 = .escaped := rfl
          rw [h1]
          have h2 : ¬ (r = [] ∧ (false : Bool) = false ∧ last + 1 = i + 2) := by omega
          have h3 : ¬ (94 :: d :: r = [] ∧ (false : Bool) = false ∧ last + 1 = i) := by simp
          rw [or_iff_right h2, or_iff_right h3]
          constructor
          · rintro ⟨y, h4, h5⟩
            exact ⟨d :: y, by rw [h4]; rfl, h5⟩
          · rintro ⟨y, h4, h5⟩
            cases y with
            | nil => simp at h5
            | cons a y =>
              have h6 := (List.cons.inj h4).2
              obtain rfl := (List.cons.inj h4).1
              exact ⟨y, h6, h5⟩
        · rw [if_neg hcar]
          have := ih (d :: r) (by simp; omega) (i + 1) q last (by omega)
          rw [show i + (c :: d :: r).length = i + 1 + (d :: r).length by simp; omega, this]
          have h1 : Mode.step (if q = true then .quoted else .plain) c = if q = true then .quoted else .plain := by
            cases q with
            | false =>
              have : c ≠ 94 := fun h => hcar ⟨rfl, h⟩
              simp [Mode.step, hc, this]
            | true => simp [Mode.step, hc]
          rw [h1]
          simp

theorem unquote_spec {buffer : List Nat} {w : LineWord} (hq : w.quoted = false) (hl : w.offset + w.length ≤ buffer.length) (hb : buffer.length < 65536) :
    ∃ w', Unquoted buffer w w' ∧ unquote buffer (toWord w) = toWord w' := by
  have hsame : toWord { w with quoted := false } = toWord w := by unfold toWord; rw [hq]
  unfold unquote
  by_cases h1 : (toWord w).length = 0 ∨ (toWord w).isAlias = true
  · rw [if_pos h1]
    refine ⟨_, .same ?_, hsame.symm⟩
    rcases h1 with h1 | h1
    · right
      have h1 : w.length = 0 := h1
      simp [Spec.slice, h1]
    · exact .inl h1
  · rw [if_neg h1]
    obtain ⟨h1, h2⟩ := not_or.1 h1
    have h1 : w.length ≠ 0 := h1
    have h2 : w.isAlias = false := by simpa [toWord] using h2
    have hsl : (slice buffer w.offset w.length).length = w.length := by simp [Spec.slice]; omega
    have hts : (List.drop (toWord w).offset buffer).take (toWord w).length = slice buffer w.offset w.length := rfl
    dsimp only
    rw [hts]
    cases hs : slice buffer w.offset w.length with
    | nil => rw [hs] at hsl; simp at hsl; omega
    | cons c x =>
      rw [hs] at hsl
      simp only [List.length_cons] at hsl
      simp only [List.headD_cons, List.tail_cons]
      by_cases hc : c = 34
      · subst hc
        have hql := quoteLoop_spec x.length x (Nat.le_refl _) 1 true 0 (by omega)
        have hcond : ((toWord w).length > 1 ∧ buffer.getD ((toWord w).offset + (toWord w).length - 1) 0 = 34 ∧ (quoteLoop 1 true 0 x).1 = false ∧
            (quoteLoop 1 true 0 x).2 + 1 = (toWord w).length) ↔ ∃ y, x = y ++ [34] ∧ mode (34 :: y) = .quoted := by
          have hwl : (toWord w).length = 1 + x.length := by show w.length = _; omega
          rw [hwl]
          have hm : ∀ y, mode (34 :: y) = y.foldl Mode.step .quoted := fun y => rfl
          simp only [hm]
          constructor
          · rintro ⟨-, -, h3, h4⟩
            rcases hql.1 ⟨h3, h4⟩ with ⟨-, h5, -⟩ | h5
            · cases h5
            · exact h5
          · intro h5
            obtain ⟨h3, h4⟩ := hql.2 (.inr h5)
            obtain ⟨y, rfl, -⟩ := h5
            refine ⟨by simp, ?_, h3, h4⟩
            have h6 : buffer.drop w.offset = (34 :: (y ++ [34])) ++ buffer.drop (w.offset + (34 :: (y ++ [34])).length) := by
              refine slice_drop ?_
              rw [List.length_cons, hsl]; exact hs
            have h7 : buffer.getD (w.offset + (y.length + 1)) 0 = 34 := by
              rw [List.getD_eq_getElem?_getD, ← List.getElem?_drop, h6]
              simp
            show buffer.getD (w.offset + _ - 1) 0 = 34
            rw [← h7]
            congr 1
            simp; omega
        by_cases hcl : ∃ y, x = y ++ [34] ∧ mode (34 :: y) = .quoted
        · have hcl' := hcond.2 hcl
          obtain ⟨y, rfl, hy⟩ := hcl
          refine ⟨_, .closed h2 hs hy, ?_⟩
          simp only [if_true, eq_true hcl']
          unfold toWord
          simp only [Word.mk.injEq, and_true, true_and]
          omega
        · refine ⟨_, .opened h2 hs hcl, ?_⟩
          simp only [if_true, eq_false (fun h => hcl (hcond.1 h)), if_false]
          unfold toWord
          simp only [Word.mk.injEq, and_true, true_and, Nat.add_zero]
          omega
      · refine ⟨_, .same (.inr (by rw [hs]; simpa using hc)), ?_⟩
        simp only [hc, if_false]
        rfl

/-! All words. -/

/-- Inside the line, and not yet known to be quoted. -/
def Fresh (line : List Nat) (w : LineWord) : Prop := w.quoted = false ∧ w.offset + w.length ≤ line.length

theorem Spec.TokenWords.fresh {line : List Nat} {stop : Nat} {depr first : Bool} {o n delim : Nat} {target : Bool} {ws : List LineWord}
    (h : TokenWords line stop depr first o n delim target ws) (hl : o + n ≤ line.length) : ∀ w ∈ ws, Fresh line w := by
  have hext : ∀ o' n', Extent line o n o' n' → o' + n' ≤ line.length := by
    intro o' n' he
    unfold Extent at he
    split at he <;> omega
  cases h with
  | @colon o' n' a b he _ _ _ hs _ =>
    have := hext _ _ he
    have h2 : a.length + 1 + b.length ≤ n' := by
      have := congrArg List.length hs
      simp [Spec.slice] at this
      omega
    intro w hw
    simp only [List.mem_cons, List.not_mem_nil, or_false] at hw
    rcases hw with rfl | rfl
    · exact ⟨rfl, by dsimp only; omega⟩
    · exact ⟨rfl, by dsimp only; omega⟩
  | @flag o' n' k r he _ _ _ _ hs _ =>
    have := hext _ _ he
    have h2 : o' + n' + k ≤ line.length := by
      have := congrArg List.length hs
      simp at this
      omega
    intro w hw
    simp only [List.mem_cons, List.not_mem_nil, or_false] at hw
    subst hw
    exact ⟨rfl, by dsimp only; omega⟩
  | plain he _ =>
    have := hext _ _ he
    intro w hw
    simp only [List.mem_cons, List.not_mem_nil, or_false] at hw
    subst hw
    exact ⟨rfl, this⟩

theorem Spec.PieceWords.fresh {line : List Nat} {base stop : Nat} {depr first : Bool} {ts : List (Nat × Nat × Nat × Bool)} {ws : List LineWord}
    (h : PieceWords line base stop depr first ts ws) : (∀ t ∈ ts, t.1 + base + t.2.1 ≤ line.length) → ∀ w ∈ ws, Fresh line w := by
  induction h with
  | nil => intro _ w hw; cases hw
  | cons h1 _ ih =>
    intro h w hw
    rcases List.mem_append.1 hw with hw | hw
    · exact h1.fresh (h _ (by simp)) w hw
    · exact ih (fun t ht => h t (by simp [ht])) w hw

theorem Spec.CommandWords.fresh {lookup : Lookup} {enh : Bool} {depr : List Nat → Bool} {line : List Nat} {o : Nat} {cmd : List Nat} {ws : List LineWord}
    (h : CommandWords lookup enh depr line o cmd ws) (hl : o + (flat cmd).length ≤ line.length) : ∀ w ∈ ws, Fresh line w := by
  cases h with
  | @alias name bl t ts ws ha hw hp =>
    obtain ⟨hcmd, -⟩ := ha
    have hlen : (flat cmd).length = (flat (name ++ bl)).length + (flat t).length := by
      rw [hcmd, ← List.append_assoc, flat_append, List.length_append]
    have hlen2 : (flat (name ++ bl)).length = (flat name).length + (flat bl).length := by rw [flat_append, List.length_append]
    intro w hwm
    rcases List.mem_cons.1 hwm with rfl | hwm
    · exact ⟨rfl, by dsimp only; omega⟩
    · refine hp.fresh (fun x hx => ?_) w hwm
      obtain ⟨a, v, b, h1, h2, h3⟩ := hw.slice (Nat.le_refl _) x hx
      have : (flat t).length = (flat a).length + ((flat v).length + (flat b).length) := by rw [h1, flat_append, flat_append]; simp
      omega
  | plain _ hw hp =>
    refine hp.fresh (fun x hx => ?_)
    obtain ⟨a, v, b, h1, h2, h3⟩ := hw.slice (Nat.le_refl _) x hx
    have : (flat cmd).length = (flat a).length + ((flat v).length + (flat b).length) := by rw [h1, flat_append, flat_append]; simp
    omega

theorem line_words (lookup : Lookup) (enh : Bool) (depr : List Nat → Bool) {buffer : List Nat} {lineStop : Nat} {st : CmdState}
    (hst : st.onlyRem = false) (hb : buffer.length < 65536) (hls : lineStop ≤ buffer.length) : ∀ rs : List (Nat × Nat), rs ≠ [] →
    (∀ r ∈ rs, r.1 + r.2 ≤ lineStop ∧ ∃ cmd, (∀ c ∈ cmd, IsText c) ∧ Spec.slice buffer r.1 r.2 = flat cmd) →
    ∃ ls b lw, LineWords lookup enh depr buffer rs ls b ∧ allWords (commandWords lookup enh depr buffer lineStop st) rs = some (ls.map toWord) ∧
      commandWords lookup enh depr buffer lineStop st (rs.getLastD (0, 0)) = some lw ∧ decide (lw = []) = b ∧ ∀ w ∈ ls, Fresh buffer w := by
  intro rs
  induction rs with
  | nil => intro h; exact absurd rfl h
  | cons r rs ih =>
    intro _ h
    obtain ⟨o, n⟩ := r
    obtain ⟨h1, cmd, h2, h3⟩ := h _ (List.mem_cons_self ..)
    dsimp only at h1 h3
    obtain ⟨ls, h4, h5⟩ := commandWords_spec lookup enh depr hst hb hls h1 h2 h3
    have hnl : (flat cmd).length = n := by rw [← h3]; simp [Spec.slice]; omega
    have hf := h4.fresh (by omega)
    cases rs with
    | nil =>
      refine ⟨ls, ls.isEmpty, ls.map toWord, .one h2 h3 h4, by simp [allWords, h5], h5, ?_, hf⟩
      cases ls <;> simp
    | cons r' rs =>
      obtain ⟨ls', b, lw, h6, h7, h8, h9, h10⟩ := ih (by simp) (fun x hx => h x (by simp [hx]))
      refine ⟨ls ++ ls', b, lw, .cons h2 h3 h4 h6, ?_, ?_, h9, ?_⟩
      · rw [allWords, h5, Option.bind_some, h7]; simp
      · have : (((o, n) :: r' :: rs).getLastD (0, 0)) = (r' :: rs).getLastD (0, 0) := by simp
        rw [this]; exact h8
      · intro w hw
        rcases List.mem_append.1 hw with hw | hw
        · exact hf w hw
        · exact h10 w hw

theorem unquote_all {buffer : List Nat} (hb : buffer.length < 65536) : ∀ ls : List LineWord, (∀ w ∈ ls, Fresh buffer w) →
    ∃ vs, AllUnquoted buffer ls vs ∧ (ls.map toWord).map (unquote buffer) = vs.map toWord := by
  intro ls
  induction ls with
  | nil => intro _; exact ⟨[], .nil, rfl⟩
  | cons w ls ih =>
    intro h
    obtain ⟨vs, h1, h2⟩ := ih (fun x hx => h x (by simp [hx]))
    obtain ⟨v, h3, h4⟩ := unquote_spec (h w (by simp)).1 (h w (by simp)).2 hb
    exact ⟨v :: vs, .cons h3 h1, by rw [List.map_cons, List.map_cons, List.map_cons, h4, h2]⟩

theorem slice_head_iff {buffer : List Nat} {o n : Nat} {c : Nat} (h : o + n ≤ buffer.length) :
    (Spec.slice buffer o n).head? = some c ↔ 0 < n ∧ buffer.getD o 0 = c := by
  cases n with
  | zero => simp [Spec.slice]
  | succ n =>
    have ho : o < buffer.length := by omega
    rw [Spec.slice, List.drop_eq_getElem_cons ho, List.take_succ_cons]
    simp [List.getElem?_eq_getElem ho]

theorem slice_length {buffer : List Nat} {o n : Nat} (h : o + n ≤ buffer.length) : (Spec.slice buffer o n).length = n := by
  simp [Spec.slice]; omega

theorem dotSlash_iff {buffer : List Nat} {c w : LineWord} (hc : c.offset + c.length ≤ buffer.length) (hw : w.offset + w.length ≤ buffer.length) :
    (c.command = true ∧ c.length > 0 ∧ w.length > 0 ∧ w.offset = c.offset + c.length ∧
        buffer.getD w.offset 0 = 47 ∧ buffer.getD c.offset 0 = 46 ∧
        (c.length = 1 ∨ c.length = 2 ∧ buffer.getD (c.offset + 1) 0 = 46)) ↔ DotSlash buffer c w := by
  unfold DotSlash
  rw [slice_head_iff hw]
  have hd : (Spec.slice buffer c.offset c.length = [46] ∨ Spec.slice buffer c.offset c.length = [46, 46]) ↔
      c.length > 0 ∧ buffer.getD c.offset 0 = 46 ∧ (c.length = 1 ∨ c.length = 2 ∧ buffer.getD (c.offset + 1) 0 = 46) := by
    generalize hn : c.length = n at *
    generalize c.offset = o at *
    match n with
    | 0 => simp [Spec.slice]
    | 1 =>
      have ho : o < buffer.length := by omega
      rw [Spec.slice, List.drop_eq_getElem_cons ho, List.take_succ_cons, List.take_zero]
      simp [List.getElem?_eq_getElem ho]
    | 2 =>
      have ho : o < buffer.length := by omega
      have ho2 : o + 1 < buffer.length := by omega
      rw [Spec.slice, List.drop_eq_getElem_cons ho, List.drop_eq_getElem_cons ho2, List.take_succ_cons, List.take_succ_cons, List.take_zero]
      simp [List.getElem?_eq_getElem ho, List.getElem?_eq_getElem ho2]
    | n + 3 =>
      have := slice_length hc
      constructor
      · rintro (h | h) <;> rw [h] at this <;> simp at this
      · omega
  rw [hd]
  constructor
  · rintro ⟨h1, h2, h3, h4, h5, h6, h7⟩; exact ⟨h1, ⟨h2, h6, h7⟩, h4, h3, h5⟩
  · rintro ⟨h1, ⟨h2, h6, h7⟩, h4, h3, h5⟩; exact ⟨h1, h2, h3, h4, h5, h6, h7⟩

theorem merge_spec {buffer : List Nat} (hb : buffer.length < 65536) (translate : Nat) (ls : List LineWord) (h : ∀ w ∈ ls, Fresh buffer w) :
    ∃ ms, Merged buffer translate ls ms ∧ mergeDots buffer translate (ls.map toWord) = ms.map toWord ∧ ∀ w ∈ ms, Fresh buffer w := by
  have short : ∀ us c w, ls = us ++ [c, w] → ls.reverse = w :: c :: us.reverse := by
    rintro us c w rfl; simp
  unfold mergeDots
  rw [← List.map_reverse]
  match hr : ls.reverse with
  | [] => exact ⟨ls, .same fun us c w he => by simp [short us c w he] at hr, rfl, h⟩
  | [x] => exact ⟨ls, .same fun us c w he => by simp [short us c w he] at hr, rfl, h⟩
  | w :: c :: rest =>
    have hls : ls = rest.reverse ++ [c, w] := by rw [← List.reverse_reverse ls, hr]; simp
    have hw := h w (by simp [hls])
    have hc := h c (by simp [hls])
    have hd := dotSlash_iff hc.2 hw.2
    simp only [List.map_cons]
    by_cases ht : translate = 1 ∨ translate = 3
    · by_cases hds : DotSlash buffer c w
      · have hwo := hds.2.2.1
        refine ⟨rest.reverse ++ [{ c with length := c.length + w.length }], hls ▸ .merged ht hds, ?_, ?_⟩
        · rw [if_pos ⟨ht, hd.2 hds⟩]
          have := hw.2
          have hm : (c.length + w.length) % 65536 = c.length + w.length := Nat.mod_eq_of_lt (by omega)
          simp [toWord, hm]
        · intro x hx
          rcases List.mem_append.1 hx with hx | hx
          · exact h x (by rw [hls]; simp at hx; simp [hx])
          · simp only [List.mem_cons, List.not_mem_nil, or_false] at hx
            subst hx
            refine ⟨hc.1, ?_⟩
            have := hw.2
            dsimp only
            omega
      · refine ⟨ls, .same fun us c' w' he => ?_, if_neg (fun hh => hds (hd.1 hh.2)), h⟩
        have := short us c' w' he
        rw [hr] at this
        simp only [List.cons.injEq] at this
        rw [← this.1, ← this.2.1]
        exact fun hh => hds hh.2
    · exact ⟨ls, .same fun us c' w' he hh => ht hh.1, if_neg (fun hh => ht hh.1), h⟩

theorem endWord_eq {buffer : List Nat} {cursor : Nat} {first : Bool} (hb : buffer.length < 65536) (hc : cursor ≤ buffer.length) (hbytes : ∀ b ∈ buffer.take cursor, b < 256) :
    mkWord cursor 0 first false false (if cursor ≠ 0 then buffer.getD (cursor - 1) 0 else 0) = toWord (endWord buffer cursor first) := by
  have hm : (if cursor ≠ 0 then buffer.getD (cursor - 1) 0 else 0) % 256 = if cursor = 0 then 0 else buffer.getD (cursor - 1) 0 := by
    by_cases h0 : cursor = 0
    · simp [h0]
    · have hl : cursor - 1 < buffer.length := by omega
      rw [if_pos h0, if_neg h0, List.getD_eq_getElem?_getD, List.getElem?_eq_getElem hl, Option.getD_some]
      refine Nat.mod_eq_of_lt (hbytes _ ?_)
      have hl2 : cursor - 1 < (buffer.take cursor).length := by simp; omega
      have := List.getElem_mem hl2
      rwa [List.getElem_take] at this
  unfold mkWord toWord endWord
  dsimp only
  rw [Nat.mod_eq_of_lt (by omega), hm]

theorem endWord_fresh {buffer : List Nat} {cursor : Nat} {first : Bool} (hc : cursor ≤ buffer.length) : Fresh buffer (endWord buffer cursor first) :=
  ⟨rfl, hc⟩

theorem addEnd_cursor {buffer : List Nat} {cursor : Nat} {first : Bool} (hb : buffer.length < 65536) (hc : cursor ≤ buffer.length) (hbytes : ∀ b ∈ buffer.take cursor, b < 256)
    (ls : List LineWord) (h : ∀ w ∈ ls, Fresh buffer w) :
    ∃ es, AtCursor buffer cursor first ls es ∧ addEnd buffer cursor true first (ls.map toWord) = es.map toWord ∧ ∀ w ∈ es, Fresh buffer w := by
  unfold addEnd
  simp only [endWord_eq hb hc hbytes]
  match hr : ls.reverse with
  | [] =>
    have : ls = [] := by simpa using hr
    subst this
    refine ⟨_, .none, rfl, ?_⟩
    intro x hx
    simp only [List.mem_cons, List.not_mem_nil, or_false] at hx
    subst hx
    exact endWord_fresh hc
  | w :: rest =>
    have hls : ls = rest.reverse ++ [w] := by rw [← List.reverse_reverse ls, hr]; simp
    have hlast : (ls.map toWord).getLast? = some (toWord w) := by rw [hls]; simp
    rw [hlast]
    by_cases hlt : w.offset + w.length < cursor
    · refine ⟨rest.reverse ++ [w, endWord buffer cursor first], hls ▸ .add hlt, ?_, ?_⟩
      · simp only [if_pos (And.intro trivial hlt : True ∧ (toWord w).offset + (toWord w).length < cursor)]
        rw [hls]; simp
      · intro x hx
        simp only [List.mem_append, List.mem_cons, List.not_mem_nil, or_false] at hx
        rcases hx with hx | rfl | rfl
        · exact h x (by rw [hls]; simp at hx; simp [hx])
        · exact h x (by rw [hls]; simp)
        · exact endWord_fresh hc
    · refine ⟨ls, ?_, ?_, h⟩
      · rw [hls]; exact .same (Nat.le_of_not_lt hlt)
      · dsimp only; rw [if_neg (fun hh => hlt hh.2)]

theorem addEnd_line {buffer : List Nat} {cursor : Nat} {first : Bool} (hb : buffer.length < 65536) (hc : cursor ≤ buffer.length) (hbytes : ∀ b ∈ buffer.take cursor, b < 256)
    (ls : List LineWord) (h : ∀ w ∈ ls, Fresh buffer w) :
    ∃ es, OrEmpty buffer cursor first ls es ∧ addEnd buffer cursor false first (ls.map toWord) = es.map toWord ∧ ∀ w ∈ es, Fresh buffer w := by
  unfold addEnd
  simp only [endWord_eq hb hc hbytes]
  cases ls with
  | nil =>
    refine ⟨_, .none, rfl, ?_⟩
    intro x hx
    simp only [List.mem_cons, List.not_mem_nil, or_false] at hx
    subst hx
    exact endWord_fresh hc
  | cons w ls =>
    refine ⟨w :: ls, .same (by simp), ?_, h⟩
    have : ((w :: ls).map toWord).getLast? ≠ none := by simp
    match hg : ((w :: ls).map toWord).getLast? with
    | none => exact absurd hg this
    | some x => simp

theorem Spec.Split.slice {lookup : Lookup} {first : Bool} {pos : Nat} {cs : List Nat} {rs : List (Nat × Nat)} (h : Split lookup first pos cs rs) :
    ∀ r ∈ rs, ∃ a cmd b, cs = a ++ (cmd ++ b) ∧ r = (pos + (flat a).length, (flat cmd).length) := by
  induction h with
  | nil => intro r hr; cases hr
  | @last first pos o cmd cl _ _ _ =>
    intro r hr
    simp only [List.mem_cons, List.not_mem_nil, or_false] at hr
    exact ⟨o, cmd, cl, rfl, hr⟩
  | @cons first pos o cmd cl s rest rs _ _ _ _ _ ih =>
    intro r hr
    rcases List.mem_cons.1 hr with rfl | hr
    · exact ⟨o, cmd, cl ++ s :: rest, by simp, rfl⟩
    · obtain ⟨a, c, b, h1, h2⟩ := ih r hr
      refine ⟨o ++ (cmd ++ cl) ++ a, c, b, by rw [h1]; simp, ?_⟩
      rw [h2, flat_append (o ++ (cmd ++ cl)), List.length_append, Nat.add_assoc]

theorem split_ranges {lookup : Lookup} {cs : List Nat} {rs : List (Nat × Nat)} (h : Split lookup true 0 cs rs) (hcs : ∀ c ∈ cs, IsText c) (rest : List Nat) :
    ∀ r ∈ rs, r.1 + r.2 ≤ (flat cs).length ∧ ∃ cmd, (∀ c ∈ cmd, IsText c) ∧ Spec.slice (flat cs ++ rest) r.1 r.2 = flat cmd := by
  intro r hr
  obtain ⟨a, cmd, b, h1, h2⟩ := h.slice r hr
  have hf : flat cs = flat a ++ (flat cmd ++ flat b) := by rw [h1, flat_append, flat_append]
  rw [h2]
  refine ⟨?_, cmd, fun c hc => hcs c (by rw [h1]; simp [hc]), ?_⟩
  · dsimp only; rw [hf]; simp
  · dsimp only
    rw [hf, Nat.zero_add, Spec.slice, List.append_assoc, List.append_assoc, List.drop_left, List.take_left]

theorem collect_line (lookup : Lookup) (enh : Bool) (depr : List Nat → Bool) (translate : Nat) {buffer : List Nat} {cursor : Nat} {rs : List (Nat × Nat)}
    (hb : buffer.length < 65536) (hc : cursor ≤ buffer.length) (hbytes : ∀ b ∈ buffer.take cursor, b < 256)
    (hrs : bounds lookup enh buffer cursor false = some rs) (hne : rs ≠ [])
    (hr : ∀ r ∈ rs, r.1 + r.2 ≤ buffer.length ∧ ∃ cmd, (∀ c ∈ cmd, IsText c) ∧ Spec.slice buffer r.1 r.2 = flat cmd) :
    ∃ ls first es vs, LineWords lookup enh depr buffer rs ls first ∧ OrEmpty buffer cursor first ls es ∧ AllUnquoted buffer es vs ∧
      collect lookup enh depr translate buffer cursor false = some (vs.map toWord) := by
  obtain ⟨ls, b, lw, h1, h2, h3, h4, h5⟩ := line_words lookup enh depr (st := {}) rfl hb (Nat.le_refl _) rs hne hr
  obtain ⟨es, h6, h7, h8⟩ := addEnd_line (first := b) hb hc hbytes ls h5
  obtain ⟨vs, h9, h10⟩ := unquote_all hb es h8
  refine ⟨ls, b, es, vs, h1, h6, h9, ?_⟩
  simp only [collect, hrs, Option.bind_some, Bool.false_eq_true, if_false, h2, h3, Option.map_some, h4, h7, h10]

theorem collect_cursor (lookup : Lookup) (enh : Bool) (depr : List Nat → Bool) (translate : Nat) {buffer : List Nat} {cursor : Nat} {rs : List (Nat × Nat)}
    (hb : buffer.length < 65536) (hc : cursor ≤ buffer.length) (hbytes : ∀ b ∈ buffer.take cursor, b < 256)
    (hrs : bounds lookup enh buffer cursor true = some rs) (hne : rs ≠ [])
    (hr : ∀ r ∈ rs, r.1 + r.2 ≤ cursor ∧ ∃ cmd, (∀ c ∈ cmd, IsText c) ∧ Spec.slice buffer r.1 r.2 = flat cmd) :
    ∃ ls first ms es vs, LineWords lookup enh depr buffer rs ls first ∧ Merged buffer translate ls ms ∧ AtCursor buffer cursor first ms es ∧
      AllUnquoted buffer es vs ∧ collect lookup enh depr translate buffer cursor true = some (vs.map toWord) := by
  obtain ⟨ls, b, lw, h1, h2, h3, h4, h5⟩ := line_words lookup enh depr (st := {}) rfl hb hc rs hne hr
  obtain ⟨ms, h11, h12, h13⟩ := merge_spec hb translate ls h5
  obtain ⟨es, h6, h7, h8⟩ := addEnd_cursor (first := b) hb hc hbytes ms h13
  obtain ⟨vs, h9, h10⟩ := unquote_all hb es h8
  refine ⟨ls, b, ms, es, vs, h1, h11, h6, h9, ?_⟩
  simp only [collect, hrs, Option.bind_some, if_true, h2, h3, Option.map_some, h4, h12, h7, h10]

end Clink.Tokens
