import Verif.Proof.Glob

/-! C72: enumerating files gives exactly the ones that were asked for. -/

namespace Clink.Glob

open Spec (Ask Has Wanted Called Name)
open StrCompare (isSep)

variable {alpha : Nat → Bool}

instance (a : Ask) (e : Entry) : Decidable (∀ t, a.before = some t → e.write < t) :=
  match h : a.before with
  | none => .isTrue (fun t ht => by simp at ht)
  | some u => if hu : e.write < u then .isTrue (fun t ht => by injection ht with ht; omega) else .isFalse (fun hh => hu (hh u rfl))

instance (a : Ask) (e : Entry) : Decidable (Wanted a e) := by unfold Wanted; infer_instance

theorem wanted_eq (g : G) : wanted g = (entries g).filter fun e => decide (Wanted (askOf g) e) := by
  unfold wanted
  congr 1
  funext e
  have := again_iff g e
  by_cases h : Wanted (askOf g) e
  · rw [this.2 h]; simp [h]
  · have : again g e = true := by
      cases hh : again g e with
      | true => rfl
      | false => exact absurd (this.1 hh) h
    rw [this]; simp [h]

/-- Calls of `next`. -/
def calls (alpha : Nat → Bool) (rooted : Bool) : Nat → G → Option (List (Option (List Nat × Entry)))
  | 0, _ => some []
  | n + 1, g => (next alpha rooted g).bind fun r => (calls alpha rooted n r.2).map (r.1 :: ·)

theorem calls_none (rooted : Bool) (j : Nat) (g : G) (h : g.cur = none) : calls alpha rooted j g = some (List.replicate j none) := by
  induction j with
  | zero => rfl
  | succ j ih =>
    unfold calls
    rw [next_none rooted g h]
    simp only [Option.bind_some, ih, Option.map_some]
    rfl

theorem calls_gives (rooted : Bool) (j : Nat) : ∀ (outs : List (List Nat × Entry)) (g : G), Gives alpha rooted g outs →
    calls alpha rooted (outs.length + j) g = some (outs.map some ++ List.replicate j none) := by
  intro outs
  induction outs with
  | nil =>
    intro g h
    obtain ⟨g', e1, e2⟩ := h
    cases j with
    | zero => rfl
    | succ j =>
      simp only [List.length_nil, Nat.zero_add]
      unfold calls
      rw [e1]
      simp only [Option.bind_some, calls_none rooted j g' e2, Option.map_some]
      rfl
  | cons x l ih =>
    intro g h
    obtain ⟨g', e1, e2⟩ := h
    rw [List.length_cons, show l.length + 1 + j = (l.length + j) + 1 by omega]
    unfold calls
    rw [e1]
    simp only [Option.bind_some, ih g' e2, Option.map_some]
    rfl

/-- The wanted entries come in their order, each of them once, and then there is nothing for ever. -/
theorem C72_once (ha : Path.AlphaOk alpha) (rooted : Bool) (g : G) (hr : 0 ∉ g.root) (hn : ∀ e ∈ entries g, Name e) :
    ∃ outs : List (List Nat × Entry), outs.map (·.2) = (entries g).filter (fun e => decide (Wanted (askOf g) e)) ∧
      (∀ x ∈ outs, Called alpha (if rooted then g.root else []) g.suffix x.2 x.1) ∧
      ∀ j, calls alpha rooted (outs.length + j) g = some (outs.map some ++ List.replicate j none) := by
  obtain ⟨outs, a, b, c⟩ := gives_aux ha rooted (wanted g) g rfl hr hn
  rw [wanted_eq] at b
  exact ⟨outs, b, c, fun j => calls_gives rooted j outs g a⟩

/-- What is searched for: the pattern without quotation marks, with the current directory of the drive. -/
def Searched (os : Os) (pattern q : List Nat) : Prop :=
  let p := pattern.filter (· != 34)
  (q = p ∧ ∀ c r, p = c :: 58 :: r → r.head? ≠ some 92 → r.head? ≠ some 47 → os.env [61, c, 58] = none) ∨
  (∃ c r v, p = c :: 58 :: r ∧ r.head? ≠ some 92 ∧ r.head? ≠ some 47 ∧ os.env [61, c, 58] = some v ∧ q = v ++ [92] ++ r)

theorem drive_searched (os : Os) (pattern : List Nat) : Searched os pattern (drivePattern os (pattern.filter (· != 34))) := by
  unfold Searched
  simp only []
  generalize pattern.filter (· != 34) = p
  unfold drivePattern
  split
  · rename_i c r
    split
    · rename_i h
      left
      refine ⟨rfl, fun c' r' e h1 h2 => ?_⟩
      injection e with e1 e2
      injection e2 with e2 e3
      subst e3
      rcases h with h | h
      · exact absurd h h1
      · exact absurd h h2
    · rename_i h
      have h1 : r.head? ≠ some 92 := fun hh => h (.inl hh)
      have h2 : r.head? ≠ some 47 := fun hh => h (.inr hh)
      cases hv : os.env [61, c, 58] with
      | none =>
        left
        refine ⟨rfl, fun c' r' e _ _ => ?_⟩
        injection e with e1 e2
        rw [← e1]; exact hv
      | some v => exact .inr ⟨c, r, v, rfl, h1, h2, hv, rfl⟩
  · rename_i h
    left
    exact ⟨rfl, fun c r e _ _ => absurd e (h c r)⟩

theorem isDots_iff (n : List Nat) : isDots n = true ↔ n ∈ [[46], [46, 46], [46, 42], [46, 46, 42]] := by
  unfold isDots
  split
  · rename_i r
    rcases r with _ | ⟨a, _ | ⟨b, r⟩⟩
    · simp
    · by_cases h1 : a = 46 <;> by_cases h2 : a = 42 <;> simp [h1, h2]
    · by_cases h1 : a = 46 <;> by_cases h2 : a = 42 <;> by_cases h3 : b = 42 <;> simp [h1, h2, h3]
  · rename_i h
    constructor
    · intro hh; simp at hh
    · intro hh
      rcases n with _ | ⟨a, r⟩
      · simp at hh
      · by_cases h1 : a = 46
        · subst h1; exact absurd rfl (h r)
        · simp [h1] at hh

/-- The constructor ends, and looks for the pattern: `root` is the directory of the pattern with backslashes, and the entries
`.` and `..` are given if the name in the pattern is `.` or `..` (or with a star). -/
theorem C72_make (ha : Path.AlphaOk alpha) (os : Os) (pattern : List Nat) (hz : 0 ∉ pattern) (he : ∀ x v, os.env x = some v → 0 ∉ v) :
    ∃ g, make alpha os pattern = some g ∧ (g.files ∧ g.dirs ∧ g.suffix ∧ g.hidden = false ∧ g.system = false ∧ g.older = none) ∧
      ((Abbrev.isIncompleteUnc (Path.cstr (pattern.filter (· != 34))) = some true ∧ g = {}) ∨
       ∃ q d a n, Searched os pattern q ∧ entries g = os.find q ∧ q = d ++ a ++ n ∧ Path.Seps a ∧ Path.NoSeps n ∧
        Path.getName alpha q = some n ∧
        g.root = d.map (fun c => if c = 47 then 92 else c) ∧ (g.dots = true ↔ n ∈ [[46], [46, 46], [46, 42], [46, 46, 42]])) := by
  unfold make
  simp only [Abbrev.stripQuotes_eq]
  have hz' : 0 ∉ pattern.filter (· != 34) := fun h => hz (List.mem_filter.1 h).1
  obtain ⟨b, hb⟩ := Abbrev.isIncompleteUnc_some (Path.at_cstr hz')
  rw [hb]
  cases b with
  | true => exact ⟨{}, rfl, by decide, .inl ⟨rfl, rfl⟩⟩
  | false =>
    have hs := drive_searched os pattern
    generalize drivePattern os (pattern.filter (· != 34)) = q at *
    have hq : 0 ∉ q := by
      rcases hs with ⟨h, -⟩ | ⟨c, r, v, h1, -, -, h4, h5⟩
      · rw [h]; exact hz'
      · rw [h5]
        rw [h1] at hz'
        simp only [List.mem_append, List.mem_cons, not_or] at *
        exact ⟨⟨he _ _ h4, by simp⟩, hz'.2.2⟩
    obtain ⟨d, a, n, h1, h2, h3, h4, h5⟩ := dir_split ha hq
    simp only [Option.bind_eq_bind, Option.bind_some, Bool.false_eq_true, if_false, h1, h2, Option.pure_def]
    have hroot : Path.normaliseSeparators 92 d = d.map (fun c => if c = 47 then 92 else c) := by
      rw [Matches.normSep]
      congr 1
      funext c
      by_cases e1 : c = 47
      · simp [e1, isSep]
      · by_cases e2 : c = 92
        · simp [e2, isSep]
        · simp [isSep, e1, e2]
    cases hf : os.find q with
    | nil => exact ⟨_, rfl, by simp, .inr ⟨q, d, a, n, hs, by rw [hf]; rfl, h3, h4, h5, h2, hroot, isDots_iff n⟩⟩
    | cons x r => exact ⟨_, rfl, by simp, .inr ⟨q, d, a, n, hs, by rw [hf]; rfl, h3, h4, h5, h2, hroot, isDots_iff n⟩⟩

/-- Only what was written more than so many seconds ago is left. -/
theorem C72_older (g : G) (e : Entry) (now n : Nat) (hn : n < 2147483648) :
    (olderThan (some now) n g).1 = true ∧
    (Wanted (askOf (olderThan (some now) n g).2) e ↔ Wanted { askOf g with before := none } e ∧ e.write + n * 10000000 < now) := by
  refine ⟨rfl, ?_⟩
  have h1 : ((n : Int) % 18446744073709551616).toNat = n := by omega
  have h2 : n * 10000000 % 18446744073709551616 = n * 10000000 := by omega
  have h3 : (olderThan (some now) n g).2 = { g with older := some (if now ≤ n * 10000000 then 0 else now - n * 10000000) } := by
    unfold olderThan
    simp only [h1, h2]
  rw [h3]
  unfold Wanted askOf
  simp only [Option.some.injEq, forall_eq', reduceCtorEq, false_implies, implies_true, and_true]
  have h4 : (e.write < if now ≤ n * 10000000 then 0 else now - n * 10000000) ↔ e.write + n * 10000000 < now := by
    split <;> omega
  rw [h4]
  constructor
  · rintro ⟨a, b, c, d, f, h⟩; exact ⟨⟨a, b, c, d, f⟩, h⟩
  · rintro ⟨⟨a, b, c, d, f⟩, h⟩; exact ⟨a, b, c, d, f, h⟩

/-! The calls of the system -/

/-- One search with `total` entries, of which the handle has still to give `r`. -/
def Inv (total : Nat) (g : G) : Prop :=
  (∃ e r n, g.cur = some (e, r) ∧ g.calls = .first :: List.replicate n .next ∧ n + r.length + 1 = total) ∨
  (∃ n, g.cur = none ∧ g.calls = .first :: List.replicate n .next ++ [.close] ∧ n ≤ total)

theorem snoc (n : Nat) : (Call.first :: List.replicate n .next) ++ [.next] = .first :: List.replicate (n + 1) .next := by
  rw [List.cons_append, ← List.replicate_succ']

theorem close_inv {total : Nat} {g : G} (h : Inv total g) : Inv total (close g) ∧ (close g).cur = none := by
  rcases h with ⟨e, r, n, h1, h2, h3⟩ | ⟨n, h1, h2, h3⟩
  · unfold close
    rw [h1]
    exact ⟨.inr ⟨n, rfl, by simp only []; rw [h2], by omega⟩, rfl⟩
  · unfold close
    rw [h1]
    exact ⟨.inr ⟨n, h1, h2, h3⟩, h1⟩

theorem nextFile_inv {total : Nat} {g : G} (h : Inv total g) : Inv total (nextFile g) := by
  rcases h with ⟨e, r, n, h1, h2, h3⟩ | ⟨n, h1, h2, h3⟩
  · unfold nextFile
    rw [h1]
    cases r with
    | nil =>
      simp only [close, h1]
      refine .inr ⟨n + 1, rfl, ?_, by simp at h3; omega⟩
      simp only []
      rw [h2, snoc]
    | cons x r =>
      refine .inl ⟨x, r, n + 1, rfl, ?_, by simp at h3; omega⟩
      simp only []
      rw [h2, snoc]
  · unfold nextFile
    rw [h1]
    exact .inr ⟨n, h1, h2, h3⟩

theorem skip_inv {total : Nat} : ∀ (n : Nat) (g g' : G), Inv total g → skip n g = some g' → Inv total g' := by
  intro n
  induction n with
  | zero => intro g g' _ h; simp [skip] at h
  | succ n ih =>
    intro g g' hi h
    unfold skip at h
    split at h
    · injection h with h; rw [← h]; exact hi
    · split at h
      · exact ih _ _ (nextFile_inv hi) h
      · injection h with h; rw [← h]; exact hi

theorem op_inv {total : Nat} (g g' : G) (o : Op) (hi : Inv total g) (h : op alpha g o = some g') : Inv total g' := by
  cases o with
  | next rooted =>
    unfold op next at h
    cases hs : skip (left g + 1) g with
    | none => simp [hs] at h
    | some g1 =>
      have i1 := skip_inv _ _ _ hi hs
      simp only [hs, Option.bind_eq_bind, Option.bind_some, Option.pure_def] at h
      cases hc : g1.cur with
      | none =>
        simp only [hc, Option.map_some, Option.some.injEq] at h
        rw [← h]; exact i1
      | some p =>
        simp only [hc] at h
        cases ht : textOf alpha g1 rooted p.1 with
        | none => simp [ht] at h
        | some t =>
          simp only [ht, Option.bind_some, Option.map_some, Option.some.injEq] at h
          rw [← h]; exact nextFile_inv i1
  | close =>
    unfold op at h
    injection h with h
    rw [← h]; exact (close_inv hi).1
  | older now s =>
    unfold op olderThan at h
    injection h with h
    rw [← h]
    cases now with
    | none => exact (close_inv hi).1
    | some t =>
      rcases hi with ⟨e, r, n, h1, h2, h3⟩ | ⟨n, h1, h2, h3⟩
      · exact .inl ⟨e, r, n, h1, h2, h3⟩
      · exact .inr ⟨n, h1, h2, h3⟩

theorem ops_inv {total : Nat} : ∀ (l : List Op) (g g' : G), Inv total g → ops alpha g l = some g' → Inv total g' := by
  intro l
  induction l with
  | nil => intro g g' hi h; unfold ops at h; injection h with h; rw [← h]; exact hi
  | cons o l ih =>
    intro g g' hi h
    unfold ops at h
    cases ho : op alpha g o with
    | none => simp [ho] at h
    | some g1 =>
      rw [ho] at h
      exact ih g1 g' (op_inv g g1 o hi ho) h

/-- Whatever is done with a search that has found something, after the destructor it was closed exactly once, and it was asked
for a next file only before that and not after the system has said that there is none. -/
theorem C72_closed (g : G) (e : Entry) (r : List Entry) (h0 : g.cur = some (e, r)) (h1 : g.calls = [.first]) (l : List Op) (g' : G)
    (h : ops alpha g l = some g') :
    ∃ n, (close g').calls = .first :: List.replicate n .next ++ [.close] ∧ n ≤ (entries g).length := by
  have hl : (entries g).length = r.length + 1 := by unfold entries; rw [h0]; rfl
  have hi : Inv (r.length + 1) g := .inl ⟨e, r, 0, h0, h1, by omega⟩
  obtain ⟨i2, i3⟩ := close_inv (ops_inv l g g' hi h)
  rcases i2 with ⟨e', r', n, j1, _, _⟩ | ⟨n, _, j2, j3⟩
  · rw [i3] at j1; exact absurd j1 (by simp)
  · exact ⟨n, j2, by omega⟩

/-! Lua -/

theorem collect_gives (sig : Nat → Bool) : ∀ (outs : List (List Nat × Entry)) (n i : Nat) (g : G), Gives alpha false g outs → outs.length < n →
    ∃ l, collect alpha sig n i g = some l ∧ l <+: outs ∧ ((∀ k, sig k = false) → l = outs) := by
  intro outs
  induction outs with
  | nil =>
    intro n i g h hn
    obtain ⟨g', e1, _⟩ := h
    cases n with
    | zero => simp at hn
    | succ n =>
      unfold collect
      rw [e1]
      exact ⟨[], rfl, List.prefix_refl _, fun _ => rfl⟩
  | cons x outs ih =>
    intro n i g h hn
    obtain ⟨g', e1, e2⟩ := h
    cases n with
    | zero => simp at hn
    | succ n =>
      unfold collect
      rw [e1]
      simp only [Option.bind_eq_bind, Option.bind_some, Option.pure_def]
      split
      · rename_i hs
        refine ⟨[x], rfl, ⟨outs, rfl⟩, fun hh => ?_⟩
        rw [hh] at hs
        exact absurd hs.2 (by simp)
      · obtain ⟨l, a, b, c⟩ := ih n (i + 1) g' e2 (by simp at hn; omega)
        rw [a]
        refine ⟨x :: l, rfl, ?_, fun hh => by rw [c hh]⟩
        exact (List.prefix_cons_inj x).2 b

theorem gives_none (g : G) (h : g.cur = none) (rooted : Bool) : Gives alpha rooted g [] := ⟨g, next_none rooted g h, h⟩

theorem chunk_gives (late : Nat → Bool) : ∀ (n : Nat) (outs : List (List Nat × Entry)) (c : Nat) (g : G), Gives alpha false g outs →
    ∃ l b g' t, chunkLoop alpha late n c g = some (l, b, g') ∧ outs = l ++ t ∧ (b = false → t = []) ∧ (b = true → Gives alpha false g' t) ∧
      (b = true → 0 < n → l ≠ []) := by
  intro n
  induction n with
  | zero => intro outs c g h; exact ⟨[], true, g, outs, rfl, rfl, by simp, fun _ => h, by simp⟩
  | succ n ih =>
    intro outs c g h
    cases outs with
    | nil =>
      obtain ⟨g', e1, _⟩ := h
      unfold chunkLoop
      rw [e1]
      exact ⟨[], false, g', [], rfl, rfl, fun _ => rfl, by simp, by simp⟩
    | cons x outs =>
      obtain ⟨g', e1, e2⟩ := h
      unfold chunkLoop
      rw [e1]
      simp only [Option.bind_eq_bind, Option.bind_some, Option.pure_def]
      split
      · exact ⟨[x], true, g', outs, rfl, rfl, by simp, fun _ => e2, by simp⟩
      · obtain ⟨l, b, g2, t, h1, h2, h3, h4, -⟩ := ih outs (c + 1) g' e2
        rw [h1]
        exact ⟨x :: l, b, g2, t, rfl, by rw [h2]; rfl, h3, h4, by simp⟩

theorem gather_gives (late : Nat → Nat → Bool) : ∀ (n : Nat) (outs : List (List Nat × Entry)) (g : G), Gives alpha false g outs → outs.length < n →
    gather alpha late n g = some outs := by
  intro n
  induction n with
  | zero => intro outs g _ h; omega
  | succ n ih =>
    intro outs g h hn
    obtain ⟨l, b, g', t, h1, h2, h3, h4, h5⟩ := chunk_gives (late n) 250 outs 0 g h
    unfold gather chunk
    rw [h1]
    simp only [Option.bind_eq_bind, Option.bind_some, Option.pure_def]
    cases b with
    | false =>
      rw [if_neg (by simp), h2, h3 rfl, List.append_nil]
    | true =>
      rw [if_pos rfl]
      have hl : 0 < l.length := List.length_pos_iff.2 (h5 rfl (by omega))
      have := ih t g' (h4 rfl) (by rw [h2, List.length_append] at hn; omega)
      rw [this, h2]
      rfl

/-- `os.globfiles` and `os.globdirs` give exactly the wanted files, in the main coroutine unless Ctrl-C is pressed (then some of
the first), and in another coroutine however slow the disk is. -/
theorem C72_lua (ha : Path.AlphaOk alpha) (g : G) (hn : ∀ e ∈ entries g, Name e) (hr : 0 ∉ g.root) :
    ∃ outs : List (List Nat × Entry), outs.map (·.2) = (entries g).filter (fun e => decide (Wanted (askOf g) e)) ∧
      (∀ x ∈ outs, x.1 = x.2.name ++ (if Has x.2 16 ∧ g.suffix = true then [92] else [])) ∧
      (∀ sig n i, outs.length < n → ∃ l, collect alpha sig n i g = some l ∧ l <+: outs ∧ ((∀ k, sig k = false) → l = outs)) ∧
      (∀ late n, outs.length < n → gather alpha late n g = some outs) := by
  obtain ⟨outs, a, b, c⟩ := gives_aux ha false (wanted g) g rfl hr hn
  rw [wanted_eq] at b
  refine ⟨outs, b, ?_, fun sig n i h => collect_gives sig outs n i g a h, fun late n h => gather_gives late n outs g a h⟩
  intro x hx
  obtain ⟨D, h1, h2, _⟩ := c x hx
  rcases h2 with h2 | h2
  · rw [h1, h2]; simp
  · exact absurd rfl h2.2.1

theorem purge_gives : ∀ (outs : List (List Nat × Entry)) (n : Nat) (g : G), Gives alpha true g outs → outs.length < n →
    purgeLoop alpha n g = some outs := by
  intro outs
  induction outs with
  | nil =>
    intro n g h hn
    obtain ⟨g', e1, _⟩ := h
    cases n with
    | zero => simp at hn
    | succ n => unfold purgeLoop; rw [e1]; rfl
  | cons x outs ih =>
    intro n g h hn
    obtain ⟨g', e1, e2⟩ := h
    cases n with
    | zero => simp at hn
    | succ n =>
      unfold purgeLoop
      rw [e1]
      simp only [Option.bind_eq_bind, Option.bind_some, Option.pure_def]
      rw [ih n g' e2 (by simp at hn; omega)]
      rfl

/-- Only temporary files that were written more than 30 minutes ago are deleted, and all of them that are not hidden. -/
theorem C72_purge (ha : Path.AlphaOk alpha) (g : G) (now : Nat) (hn : ∀ e ∈ entries g, Name e) (hr : 0 ∉ g.root) :
    (∃ outs : List (List Nat × Entry), purge alpha (some now) g = some outs ∧
      outs.map (·.2) = (entries g).filter (fun e => decide (Wanted { askOf g with before := none } e ∧ e.write + 18000000000 < now)) ∧
      ∀ x ∈ outs, Called alpha g.root g.suffix x.2 x.1) ∧ purge alpha none g = some [] := by
  constructor
  · generalize hg : (olderThan (some now) 1800 g).2 = g1
    have hk : entries g1 = entries g ∧ g1.root = g.root ∧ g1.suffix = g.suffix := by rw [← hg]; exact ⟨rfl, rfl, rfl⟩
    obtain ⟨outs, a, b, c⟩ := gives_aux ha true (wanted g1) g1 rfl (by rw [hk.2.1]; exact hr) (by rw [hk.1]; exact hn)
    rw [wanted_eq, hk.1] at b
    have hlen : outs.length ≤ (entries g).length := by
      have := congrArg List.length b
      rw [List.length_map] at this
      rw [this]
      exact List.length_filter_le _ _
    refine ⟨outs, ?_, ?_, ?_⟩
    · unfold purge
      simp only []
      rw [hg]
      exact purge_gives outs _ g1 a (by rw [left_eq, hk.1]; omega)
    · rw [b]
      congr 1
      funext e
      have := (C72_older g e now 1800 (by omega)).2
      rw [show ((1800 : Nat) : Int) = 1800 from rfl, hg] at this
      rw [decide_eq_decide]
      exact this
    · intro x hx
      have := c x hx
      rw [hk.2.1, hk.2.2] at this
      exact this
  · unfold purge
    simp only []
    have hc : ((olderThan none 1800 g).2).cur = none := by
      show (close g).cur = none
      unfold close
      split
      · assumption
      · rfl
    exact purge_gives [] _ _ (gives_none _ hc true) (by simp)

/-- The type has exactly the tags that the attributes say; a link is orphaned if its target cannot be found. -/
theorem C72_type (stat : List Nat → Bool) (parent : List Nat) (x : List Nat × Entry) (full : List Nat)
    (h : Path.append alpha parent x.1 = some full) :
    typeOf alpha stat parent x = some (Spec.commas (Spec.tags x.2 (decide (Spec.Link x.2)) (!stat full))) := by
  have h1 : x.2.attr.testBit dirBit = decide (Has x.2 16) := by
    rw [Bool.eq_iff_iff, decide_eq_true_iff]; exact has_iff x.2 dirBit
  have h2 : x.2.attr.testBit hiddenBit = decide (Has x.2 2) := by
    rw [Bool.eq_iff_iff, decide_eq_true_iff]; exact has_iff x.2 hiddenBit
  have h3 : x.2.attr.testBit systemBit = decide (Has x.2 4) := by
    rw [Bool.eq_iff_iff, decide_eq_true_iff]; exact has_iff x.2 systemBit
  have h4 : x.2.attr.testBit readonlyBit = decide (Has x.2 1) := by
    rw [Bool.eq_iff_iff, decide_eq_true_iff]; exact has_iff x.2 readonlyBit
  have h5 : isLink x.2 = decide (Spec.Link x.2) := by
    rw [Bool.eq_iff_iff, decide_eq_true_iff]
    have a := has_iff x.2 reparseBit
    have b := has_iff x.2 offlineBit
    unfold isLink Spec.Link
    rw [Bool.and_eq_true, Bool.and_eq_true, Bool.not_eq_true', beq_iff_eq, a, ← Bool.not_eq_true, b, and_assoc]
    rfl
  unfold typeOf Spec.tags
  rw [h1, h2, h3, h4, h5, h]
  by_cases a1 : Has x.2 16 <;> by_cases a2 : Has x.2 2 <;> by_cases a3 : Has x.2 4 <;> by_cases a4 : Has x.2 1 <;>
    by_cases a5 : Spec.Link x.2 <;> cases a6 : stat full <;> simp [a1, a2, a3, a4, a5, a6, addTag, tag, Spec.commas]

/-- The size is the whole size. -/
theorem C72_size (e : Entry) (n : Nat) (hl : e.sizeLow = n % 4294967296) (hh : e.sizeHigh = n / 4294967296) : size e = n := by
  unfold size
  omega

/-! Cases -/

private def bs (s : String) : List Nat := s.toList.map Char.toNat
private def az (c : Nat) : Bool := (65 ≤ c && c ≤ 90) || (97 ≤ c && c ≤ 122)

private def disk : List Entry :=
  [{ name := bs ".", attr := 16 }, { name := bs "..", attr := 16 }, { name := bs "a", attr := 32, write := 5 }, { name := bs "sub", attr := 16 },
   { name := bs "h", attr := 34 }, { name := bs "s", attr := 36 }, { name := bs "l", attr := 1056, tag := 0xA000000C, write := 18000000006 }]

private def os : Os :=
  { find := fun p => if p = bs "d\\*" ∨ p = bs "C:\\x\\f*" ∨ p = bs "d/..*" then disk else []
    env := fun v => if v = bs "=c:" then some (bs "C:\\x") else none }

-- `C72_make`, `C72_once`: quotation marks, the current directory of a drive, and `..`
example : ((make az os (bs "\"d\"\\*")).bind (calls az true 5)).map (·.map (·.map (·.1))) =
    some [some (bs "d\\a"), some (bs "d\\sub\\"), some (bs "d\\l"), none, none] := by decide +kernel
example : ((make az os (bs "c:f*")).bind (calls az true 2)).map (·.map (·.map (·.1))) =
    some [some (bs "C:\\x\\a"), some (bs "C:\\x\\sub\\")] := by decide +kernel
example : ((make az os (bs "d/..*")).bind (calls az false 3)).map (·.map (·.map (·.1))) =
    some [some (bs ".\\"), some (bs "..\\"), some (bs "a")] := by decide +kernel
example : (make az os (bs "\\\\server\\sh")) = some {} := by decide +kernel
example : ∀ e ∈ disk, Name e := by unfold Name; decide +kernel
-- `C72_closed`
example : ((make az os (bs "d\\*")).bind fun g => ops az g [.next true, .next false, .close, .next true]).map (fun g => (close g).calls) =
    some [.first, .next, .next, .next, .next, .close] := by decide +kernel
example : ((make az os (bs "d\\*")).bind fun g => ops az g [.next true, .older none 0]).map (fun g => (close g).calls) =
    some [.first, .next, .next, .next, .close] := by decide +kernel
-- `C72_lua`: each call has only time for one file; and with Ctrl-C after the third
example : ((make az os (bs "d\\*")).bind fun g => gather az (fun _ _ => true) 7 { g with hidden := true, system := true }).map (·.map (·.1)) =
    some [bs "a", bs "sub\\", bs "h", bs "s", bs "l"] := by decide +kernel
example : ((make az os (bs "d\\*")).bind fun g => collect az (fun _ => true) 7 1 { g with hidden := true, system := true }).map (·.map (·.1)) =
    some [bs "a", bs "sub\\", bs "h"] := by decide +kernel
-- `C72_purge`, `C72_older`
example : ((make az os (bs "d\\*")).bind (purge az (some 18000000006))).map (·.map (·.1)) = some [bs "d\\a", bs "d\\sub\\"] := by decide +kernel
-- `C72_type`
example : typeOf az (fun p => p == bs "d\\l") (bs "d") (bs "l", { name := bs "l", attr := 1056 + 3, tag := 0xA000000C }) =
    some (bs "file,link,hidden,readonly") := by decide +kernel

/-- VIOLATION: with quotation marks around the pattern, a link whose target exists is said to be orphaned: the directory is taken
from the pattern with its quotation marks. -/
theorem C72_orphaned_violated :
    (make az os (bs "\"d\\*\"")).map entries = some disk ∧
    ∃ parent, parentOf az (bs "\"d\\*\"") = some parent ∧
      typeOf az (fun p => p == bs "d\\l") parent (bs "l", { name := bs "l", attr := 1056, tag := 0xA000000C }) = some (bs "file,link,orphaned") := by
  exact ⟨by decide +kernel, bs "\"d", by decide +kernel, by decide +kernel⟩

/-- A negative number of seconds leaves no file. -/
theorem C72_older_negative (g : G) (e : Entry) (now n : Nat) (hn : 0 < n) (hm : n ≤ 2147483648) (ht : now + n * 10000000 ≤ 18446744073709551616) :
    ¬ Wanted (askOf (olderThan (some now) (-(n : Int)) g).2) e := by
  have h1 : ((-(n : Int)) % 18446744073709551616).toNat = 18446744073709551616 - n := by omega
  have h2 : (18446744073709551616 - n) * 10000000 % 18446744073709551616 = 18446744073709551616 - n * 10000000 := by omega
  have h4 : now ≤ 18446744073709551616 - n * 10000000 := Nat.le_sub_of_add_le ht
  have h3 : (olderThan (some now) (-(n : Int)) g).2 = { g with older := some 0 } := by
    unfold olderThan
    simp only [h1, h2, h4, if_true]
  rw [h3]
  intro hw
  have := hw.2.2.2.2.2 0 rfl
  omega

end Clink.Glob
