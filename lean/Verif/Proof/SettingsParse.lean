import Verif.Proof.SettingsLoad

/-! What files say. -/

namespace Clink.Settings

open Spec
open Color (bs)

theorem tokens_lines {l : List Nat} {ls : List (List Nat)} (h : Lines l ls) (hu : Utf8 l) : Tok.tokens Utf.iter8 [10, 13] l = ls := by
  induction h with
  | nil => exact tokens_nil
  | @brk c t ls hc h ih => rw [tokens_break hc, ih (utf8_split (a := []) hu (by omega)).2]
  | @line w t ls hne h10 h13 ht h ih =>
    have hw : LineOk w ∧ Utf8 t := by
      cases t with
      | nil => rw [List.append_nil] at hu; exact ⟨⟨hu, h10, h13⟩, .nil⟩
      | cons c t =>
        have hc := ht c rfl
        obtain ⟨h1, h2⟩ := utf8_split hu (by omega)
        refine ⟨⟨h1, h10, h13⟩, ?_⟩
        exact utf8_append (a := [c]) (utf8_ascii (by intro x hx; rw [List.mem_singleton] at hx; subst hx; omega)) h2
    rw [Tok.tokens_eq]
    have : Tok.next Utf.iter8 [10, 13] (w ++ t) = some (w, t) := by
      unfold Tok.next
      simp only [skip_line hw.1 hne, stop_line hw.1 ht]
      rw [if_neg (by simp; exact hne)]
      simp
    rw [this]
    simp only [ih hw.2]

theorem lines_ne {l : List Nat} {ls : List (List Nat)} (h : Lines l ls) : ∀ w ∈ ls, w ≠ [] := by
  induction h with
  | nil => simp
  | brk hc h ih => exact ih
  | line hne h10 h13 ht h ih =>
    intro w hw
    rcases List.mem_cons.1 hw with rfl | hw
    · exact hne
    · exact ih w hw

theorem maybe_iff {ls : List (List Nat)} (h : ∀ w ∈ ls, w ≠ []) : maybeClinkSet ls = true ↔ Listing ls := by
  unfold maybeClinkSet Listing
  rw [List.all_eq_true]
  refine forall₂_congr fun w hw => ?_
  cases w with
  | nil => exact absurd rfl (h _ hw)
  | cons c w => simp

theorem dropWhile_blank {a r : List Nat} (ha : Blank a) (hr : ∀ x, r.head? = some x → ¬ Space x) : (a ++ r).dropWhile isSpace = r := by
  rw [List.dropWhile_append_of_pos (fun c hc => (isSpace_iff c).2 (ha c hc)), dropWhile_lead hr]

theorem trim_blank {n b : List Nat} (hb : Blank b) (hl : ∀ x, n.getLast? = some x → ¬ Space x) : ((n ++ b).reverse.dropWhile isSpace).reverse = n := by
  rw [List.reverse_append, List.dropWhile_append_of_pos (fun c hc => (isSpace_iff c).2 (hb c (by simpa using hc))), trim_trail hl]

theorem assigns_drop {sep : Nat} {l n v : List Nat} (hs : ¬ Space sep ∨ n ≠ []) (h : Assigns sep l n v) :
    ∃ b c, l.dropWhile isSpace = n ++ b ++ sep :: c ++ v ∧ Blank b ∧ Blank c ∧ sep ∉ n ++ b ∧ (∀ x, n.head? = some x → ¬ Space x ∧ x ≠ 35) ∧
      (n = [] → b = []) ∧ (∀ x, n.getLast? = some x → ¬ Space x) ∧ (∀ x, v.head? = some x → ¬ Space x) := by
  cases h with
  | @mk a b c n v ha hb hc hsep hn he hl hv =>
    refine ⟨b, c, ?_, hb, hc, hsep, hn, he, hl, hv⟩
    rw [show a ++ n ++ b ++ sep :: c ++ v = a ++ (n ++ b ++ sep :: c ++ v) by simp]
    apply dropWhile_blank ha
    intro x hx
    cases n with
    | nil =>
      rw [he rfl] at hx
      cases hx
      exact hs.resolve_right (by simp)
    | cons y n =>
      cases hx
      exact (hn _ rfl).1

theorem split_assigns {maybe : Bool} {sep : Nat} {l n v : List Nat} (hs : sep = 61 ∨ (sep = 32 ∧ n ≠ [] ∧ maybe = true ∧ 61 ∉ l)) (h : Assigns sep l n v) :
    (l.dropWhile isSpace).head? ≠ some 35 ∧ splitLine maybe (l.dropWhile isSpace) = some (n, v) := by
  obtain ⟨b, c, hd, hb, hc, hsep, hn, he, hl, hv⟩ := assigns_drop (by
    rcases hs with rfl | ⟨-, hs, -⟩
    · exact .inl (by unfold Space; decide)
    · exact .inr hs) h
  have h61 : 61 ∉ l → 61 ∉ l.dropWhile isSpace := fun h hm => h ((List.dropWhile_suffix _).subset hm)
  rw [hd] at h61 ⊢
  constructor
  · intro hx
    cases n with
    | nil =>
      rw [he rfl] at hx
      cases hx
      rcases hs with hs | ⟨hs, -⟩ <;> cases hs
    | cons y n =>
      cases hx
      exact (hn _ rfl).2 rfl
  · rw [show n ++ b ++ sep :: c ++ v = (n ++ b) ++ sep :: (c ++ v) by simp] at h61 ⊢
    obtain ⟨t1, t2⟩ := takeWhile_stop (n ++ b) (c ++ v) sep hsep
    unfold splitLine
    rcases hs with rfl | ⟨rfl, -, rfl, h⟩
    · rw [if_pos (by simp)]
      simp only [t1, t2]
      rw [List.drop_one, List.tail_cons, dropWhile_blank hc hv, trim_blank hb hl]
    · rw [if_neg (by simpa using h61 h), if_pos (by simp)]
      simp only [t1, t2]
      rw [List.drop_one, List.tail_cons, dropWhile_blank hc hv, trim_blank hb hl]

theorem blank_split (l : List Nat) : ∃ a, Blank a ∧ l = a ++ l.dropWhile isSpace := by
  induction l with
  | nil => exact ⟨[], fun c hc => by (cases hc), rfl⟩
  | cons x l ih =>
    by_cases hx : isSpace x = true
    · obtain ⟨a, h1, h2⟩ := ih
      refine ⟨x :: a, ?_, ?_⟩
      · intro c hc
        rcases List.mem_cons.1 hc with rfl | hc
        · exact (isSpace_iff _).1 hx
        · exact h1 c hc
      · rw [List.dropWhile_cons_of_pos hx, List.cons_append, ← h2]
    · exact ⟨[], fun c hc => by (cases hc), by rw [List.dropWhile_cons_of_neg hx]; rfl⟩

theorem drop_head (l : List Nat) : ∀ x, (l.dropWhile isSpace).head? = some x → ¬ Space x := by
  induction l with
  | nil => simp
  | cons y l ih =>
    intro x hx
    by_cases hy : isSpace y = true
    · rw [List.dropWhile_cons_of_pos hy] at hx
      exact ih x hx
    · rw [List.dropWhile_cons_of_neg hy] at hx
      cases hx
      rwa [← isSpace_iff]

/-- A line with a blank after its beginning. -/
theorem listed_of_blank {l : List Nat} (h35 : (l.dropWhile isSpace).head? ≠ some 35) (h : 32 ∈ l.dropWhile isSpace) : ∃ n v, n ≠ [] ∧ Assigns 32 l n v := by
  obtain ⟨a, ha, he⟩ := blank_split l
  have hh := drop_head l
  generalize l.dropWhile isSpace = d at *
  obtain ⟨p, q, rfl, hp⟩ := List.eq_append_cons_of_mem h
  obtain ⟨b, hb, hpe⟩ := blank_split p.reverse
  obtain ⟨c, hc, hqe⟩ := blank_split q
  have hp2 : p = (p.reverse.dropWhile isSpace).reverse ++ b.reverse := by
    rw [← List.reverse_append, ← hpe, List.reverse_reverse]
  have hpn : p ≠ [] := by
    rintro rfl
    exact hh 32 rfl (by unfold Space; decide)
  have hnn : (p.reverse.dropWhile isSpace).reverse ≠ [] := by
    intro hn
    rw [hn, List.nil_append] at hp2
    cases p with
    | nil => exact hpn rfl
    | cons x p =>
      refine hh x rfl (hb x ?_)
      rw [← List.mem_reverse, ← hp2]
      simp
  have hfirst : ∀ x, ((p.reverse.dropWhile isSpace).reverse).head? = some x → p.head? = some x := by
    intro x hx
    cases hn : (p.reverse.dropWhile isSpace).reverse with
    | nil => exact absurd hn hnn
    | cons y n =>
      rw [hn] at hx hp2
      rw [hp2]
      exact hx
  have hpa : ∀ x, p.head? = some x → (p ++ 32 :: q).head? = some x := by
    intro x hx
    cases p with
    | nil => exact absurd rfl hpn
    | cons y p => exact hx
  refine ⟨_, q.dropWhile isSpace, hnn, ?_⟩
  have := Assigns.mk (sep := 32) (a := a) (b := b.reverse) (c := c) (n := (p.reverse.dropWhile isSpace).reverse) (v := q.dropWhile isSpace) ha
    (fun x hx => hb x (by simpa using hx)) hc (by rw [← hp2]; exact hp)
    (fun x hx => ⟨hh x (hpa x (hfirst x hx)), fun h => h35 (by rw [hpa x (hfirst x hx), h])⟩) (fun h => absurd h hnn)
    (by simpa using drop_head p.reverse) (drop_head q)
  have e : a ++ (p.reverse.dropWhile isSpace).reverse ++ b.reverse ++ 32 :: c ++ q.dropWhile isSpace = l := by
    rw [he]
    simp only [List.append_assoc, List.cons_append]
    rw [← hqe, ← List.append_assoc (p.reverse.dropWhile isSpace).reverse, ← hp2]
  rw [e] at this
  exact this

theorem loadLines_says {maybe : Bool} {listing : Prop} (hm : maybe = true ↔ listing) {c : List Nat} {ls : List (List Nat)}
    {es : List (List Nat × List Nat × List Nat)} (h : Says listing c ls es) (h61 : listing → ∀ l ∈ ls, 61 ∉ l) (was : Bool) (hw : was = false → c = []) :
    loadLines maybe was c ls = es.map fun e => ⟨e.1, autoupdate e.1 e.2.1, e.2.2⟩ := by
  have hc : ∀ {c : List Nat} {was : Bool}, (was = false → c = []) → (if was then c else []) = c := by
    intro c was hw
    cases was with
    | false => rw [hw rfl]; rfl
    | true => rfl
  induction h generalizing was with
  | nil => rfl
  | @comment c a t ls es ha h ih =>
    have hd : (a ++ 35 :: t).dropWhile isSpace = 35 :: t := dropWhile_blank ha (by intro x hx; cases hx; unfold Space; decide)
    simp only [loadLines, hd, hc hw]
    rw [if_pos (by simp)]
    exact ih (fun hl l hm => h61 hl l (List.mem_cons_of_mem _ hm)) true (by simp)
  | @assign c l n v ls es hl h ih =>
    obtain ⟨h1, h2⟩ := split_assigns (maybe := maybe) (.inl rfl) hl
    simp only [loadLines, h2, hc hw]
    rw [if_neg h1, loadLines_clear, ih (fun hl l hm => h61 hl l (List.mem_cons_of_mem _ hm)) false (fun _ => rfl)]
    rfl
  | @listed c l n v ls es hs hl hne h ih =>
    obtain ⟨h1, h2⟩ := split_assigns (maybe := maybe) (.inr ⟨rfl, hne, hm.2 hs, h61 hs l (by simp)⟩) hl
    simp only [loadLines, h2, hc hw]
    rw [if_neg h1, loadLines_clear, ih (fun hl l hm => h61 hl l (List.mem_cons_of_mem _ hm)) false (fun _ => rfl)]
    rfl
  | @other c l ls es h1 h2 h3 h ih =>
    obtain ⟨a, ha, he⟩ := blank_split l
    have h35 : (l.dropWhile isSpace).head? ≠ some 35 := by
      intro hx
      cases hd : l.dropWhile isSpace with
      | nil => rw [hd] at hx; cases hx
      | cons y t =>
        rw [hd] at hx he
        cases hx
        exact h2 a t ha he
    have hsplit : splitLine maybe (l.dropWhile isSpace) = none := by
      unfold splitLine
      rw [if_neg (by simpa using fun hm => h1 ((List.dropWhile_suffix _).subset hm)), if_neg]
      intro hx
      rw [Bool.and_eq_true] at hx
      obtain ⟨n, v, g1, g2⟩ := listed_of_blank h35 (by simpa using hx.2)
      exact h3 (hm.1 hx.1) n v g1 g2
    simp only [loadLines, hsplit]
    rw [if_neg h35, loadLines_clear, ih (fun hl l hm => h61 hl l (List.mem_cons_of_mem _ hm)) false (fun _ => rfl)]

/-- What is read of a file. -/
theorem load_says {file : List Nat} (hu : Utf8 file) {ls : List (List Nat)} (hl : Lines file ls) {es : List (List Nat × List Nat × List Nat)}
    (h : Says (Listing ls) [] ls es) : loadInternal file = es.map fun e => ⟨e.1, autoupdate e.1 e.2.1, e.2.2⟩ := by
  unfold loadInternal
  simp only [tokens_lines hl hu]
  exact loadLines_says (maybe_iff (lines_ne hl)) h (fun hs l hm => (hs l hm).2) false (fun _ => rfl)

/-- Files are text, and texts say something. -/
theorem lines_exists (l : List Nat) : ∃ ls, Lines l ls := by
  obtain ⟨n, hn⟩ : ∃ n, n = l.length := ⟨_, rfl⟩
  induction n using Nat.strongRecOn generalizing l with
  | _ n ih =>
    cases l with
    | nil => exact ⟨[], .nil⟩
    | cons c t =>
      by_cases hc : c = 10 ∨ c = 13
      · obtain ⟨ls, h⟩ := ih t.length (by rw [hn]; simp) t rfl
        exact ⟨ls, .brk hc h⟩
      · let p : Nat → Bool := fun c => c != 10 && c != 13
        have hpc : p c = true := by simp only [p]; simpa using hc
        have hlen : (t.dropWhile p).length < n := by
          have := (List.dropWhile_suffix p (l := t)).length_le
          rw [hn, List.length_cons]
          omega
        obtain ⟨ls, h⟩ := ih _ hlen (t.dropWhile p) rfl
        have hmem : ∀ (t : List Nat), ∀ x ∈ t.takeWhile p, p x = true := by
          intro t
          induction t with
          | nil => simp
          | cons a l ih =>
            intro c hc
            rw [List.takeWhile_cons] at hc
            split at hc
            · rcases List.mem_cons.1 hc with rfl | hc
              · assumption
              · exact ih c hc
            · cases hc
        have hhd : ∀ (t : List Nat), ∀ x, (t.dropWhile p).head? = some x → p x = false := by
          intro t
          induction t with
          | nil => simp
          | cons a l ih =>
            intro c hc
            by_cases ha : p a = true
            · rw [List.dropWhile_cons_of_pos ha] at hc
              exact ih c hc
            · rw [List.dropWhile_cons_of_neg ha] at hc
              cases hc
              simpa using ha
        have := Lines.line (w := c :: t.takeWhile p) (by simp)
          (by
            intro hm
            rcases List.mem_cons.1 hm with rfl | hm
            · exact hc (.inl rfl)
            · have := hmem t 10 hm; simp [p] at this)
          (by
            intro hm
            rcases List.mem_cons.1 hm with rfl | hm
            · exact hc (.inr rfl)
            · have := hmem t 13 hm; simp [p] at this)
          (by
            intro x hx
            have := hhd t x hx
            simp only [p, Bool.and_eq_false_iff] at this
            simpa using this) h
        rw [List.cons_append, List.takeWhile_append_dropWhile] at this
        exact ⟨_, this⟩

theorem split_exists {sep : Nat} {l : List Nat} (h35 : (l.dropWhile isSpace).head? ≠ some 35) (h : sep ∈ l.dropWhile isSpace) (hs : ¬ Space sep) :
    ∃ n v, Assigns sep l n v := by
  obtain ⟨a, ha, he⟩ := blank_split l
  have hh := drop_head l
  generalize l.dropWhile isSpace = d at *
  obtain ⟨p, q, rfl, hp⟩ := List.eq_append_cons_of_mem h
  obtain ⟨b, hb, hpe⟩ := blank_split p.reverse
  obtain ⟨c, hc, hqe⟩ := blank_split q
  have hp2 : p = (p.reverse.dropWhile isSpace).reverse ++ b.reverse := by
    rw [← List.reverse_append, ← hpe, List.reverse_reverse]
  have hfirst : ∀ x, ((p.reverse.dropWhile isSpace).reverse).head? = some x → (p ++ sep :: q).head? = some x := by
    intro x hx
    cases hn : (p.reverse.dropWhile isSpace).reverse with
    | nil => rw [hn] at hx; cases hx
    | cons y n =>
      rw [hn] at hx hp2
      rw [hp2]
      exact hx
  have hempty : (p.reverse.dropWhile isSpace).reverse = [] → b.reverse = [] := by
    intro hn
    rw [hn, List.nil_append] at hp2
    cases hbr : b.reverse with
    | nil => rfl
    | cons x r =>
      exfalso
      rw [hbr] at hp2
      refine hh x (by rw [hp2]; rfl) (hb x ?_)
      rw [← List.mem_reverse, hbr]
      simp
  refine ⟨(p.reverse.dropWhile isSpace).reverse, q.dropWhile isSpace, ?_⟩
  · have := Assigns.mk (sep := sep) (a := a) (b := b.reverse) (c := c) (n := (p.reverse.dropWhile isSpace).reverse) (v := q.dropWhile isSpace) ha
      (fun x hx => hb x (by simpa using hx)) hc (by rw [← hp2]; exact hp)
      (fun x hx => ⟨hh x (hfirst x hx), fun h => h35 (by rw [hfirst x hx, h])⟩) hempty
      (by simpa using drop_head p.reverse) (drop_head q)
    have e : a ++ (p.reverse.dropWhile isSpace).reverse ++ b.reverse ++ sep :: c ++ q.dropWhile isSpace = l := by
      rw [he]
      simp only [List.append_assoc, List.cons_append]
      rw [← hqe, ← List.append_assoc (p.reverse.dropWhile isSpace).reverse, ← hp2]
    rw [e] at this
    exact this

theorem says_exists (listing : Prop) (c : List Nat) (ls : List (List Nat)) : ∃ es, Says listing c ls es := by
  induction ls generalizing c with
  | nil => exact ⟨[], .nil⟩
  | cons l ls ih =>
    obtain ⟨a, ha, he⟩ := blank_split l
    by_cases h35 : (l.dropWhile isSpace).head? = some 35
    · cases hd : l.dropWhile isSpace with
      | nil => rw [hd] at h35; cases h35
      | cons y t =>
        rw [hd] at h35 he
        cases h35
        obtain ⟨es, h⟩ := ih (c ++ 35 :: t ++ [10])
        rw [he]
        exact ⟨es, .comment ha h⟩
    · obtain ⟨es, h⟩ := ih []
      by_cases h61 : 61 ∈ l
      · have : 61 ∈ l.dropWhile isSpace := by
          rw [he] at h61
          rcases List.mem_append.1 h61 with h | h
          · have := ha 61 h
            unfold Space at this
            omega
          · exact h
        obtain ⟨n, v, hnv⟩ := split_exists h35 this (by unfold Space; decide)
        exact ⟨_, .assign hnv h⟩
      · by_cases hs : listing ∧ ∃ n v, n ≠ [] ∧ Assigns 32 l n v
        · obtain ⟨hs, n, v, g1, g2⟩ := hs
          exact ⟨_, .listed hs g2 g1 h⟩
        · refine ⟨es, .other h61 ?_ (fun hl n v hn hnv => hs ⟨hl, n, v, hn, hnv⟩) h⟩
          rintro a' t ha' rfl
          apply h35
          rw [dropWhile_blank ha' (by intro x hx; cases hx; unfold Space; decide)]
          rfl

theorem means_iff {n v w : List Nat} (h : Means n v w) : autoupdate n v = w := by
  have hx : ∀ x ∈ [bs "false", bs "off", bs "no", bs "true", bs "on", bs "yes"], (∀ y ∈ x, 97 ≤ y ∧ y ≤ 122) ∧ x ≠ [] := by decide
  have ht : ∀ {pre w post x : List Nat}, (∀ c ∈ pre, c = 32 ∨ c = 9) → (∀ c ∈ post, c = 32 ∨ c = 9 ∨ c = 13 ∨ c = 10) →
      x ∈ [bs "false", bs "off", bs "no", bs "true", bs "on", bs "yes"] → Color.Spec.Like w x → (trim (pre ++ w ++ post)).map Color.lower = x := by
    intro pre w post x hpre hpost hxm hl
    obtain ⟨hx1, hx2⟩ := hx x hxm
    have hwx : w.map Color.lower = x := (Color.like_iff hx1).1 hl
    have hw : ∀ c ∈ w, 65 ≤ c := by
      intro c hc
      have : Color.lower c ∈ x := by rw [← hwx]; exact List.mem_map_of_mem hc
      have := hx1 _ this
      unfold Color.lower at this
      split at this <;> omega
    have hwne : w ≠ [] := by
      rintro rfl
      exact hx2 hwx.symm
    rw [trim_old hpre hpost hwne hw, hwx]
  cases h with
  | other h =>
    by_cases hl : Color.Spec.Like n (bs "clink.autoupdate")
    · have ho : ¬ OldWord v := fun h' => h ⟨hl, h'⟩
      rw [mem_trim_old] at ho
      simp only [List.mem_cons, List.not_mem_nil, or_false, exists_eq_or_imp, exists_eq_left, not_or] at ho
      obtain ⟨h1, h2, h3, h4, h5, h6⟩ := ho
      rw [Bool.not_eq_true] at h1 h2 h3 h4 h5 h6
      unfold autoupdate
      simp only [h1, h2, h3, h4, h5, h6]
      split <;> rfl
    · exact autoupdate_other hl _
  | @no hn pre w post x hv hpre hpost hxm hw =>
    have hxm' : x ∈ [bs "false", bs "off", bs "no", bs "true", bs "on", bs "yes"] := by
      simp only [List.mem_cons, List.not_mem_nil, or_false] at hxm ⊢
      rcases hxm with h | h | h <;> simp [h]
    have := ht hpre hpost hxm' hw
    rw [← hv] at this
    unfold autoupdate
    rw [if_pos ((like_same (by decide)).1 hn)]
    simp only
    rw [if_pos]
    unfold same
    rw [this]
    simp only [List.mem_cons, List.not_mem_nil, or_false] at hxm
    rcases hxm with rfl | rfl | rfl <;> decide +kernel
  | @yes hn pre w post x hv hpre hpost hxm hw =>
    have hxm' : x ∈ [bs "false", bs "off", bs "no", bs "true", bs "on", bs "yes"] := by
      simp only [List.mem_cons, List.not_mem_nil, or_false] at hxm ⊢
      rcases hxm with h | h | h <;> simp [h]
    have := ht hpre hpost hxm' hw
    rw [← hv] at this
    unfold autoupdate
    rw [if_pos ((like_same (by decide)).1 hn)]
    simp only
    unfold same
    rw [this]
    simp only [List.mem_cons, List.not_mem_nil, or_false] at hxm
    rcases hxm with rfl | rfl | rfl
    · rw [if_neg (by decide +kernel), if_pos (by decide +kernel)]
    · rw [if_neg (by decide +kernel), if_pos (by decide +kernel)]
    · rw [if_neg (by decide +kernel), if_pos (by decide +kernel)]

end Clink.Settings
