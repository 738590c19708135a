import Verif.Spec.FindLine

namespace Clink.FindLine
open Spec

variable {env : Env}

theorem wcsstr_iff (s f : List Nat) : (∃ p, wcsstr s f = some p) ↔ f <:+: s := by
  induction s with
  | nil =>
    unfold wcsstr
    by_cases h : f = []
    · simp [h]
    · simp [h, List.infix_nil]
  | cons c s ih =>
    unfold wcsstr
    by_cases h : f.isPrefixOf (c :: s)
    · rw [if_pos h]
      exact ⟨fun _ => (List.isPrefixOf_iff_prefix.1 h).isInfix, fun _ => ⟨0, rfl⟩⟩
    · rw [if_neg h, List.infix_cons_iff, ← ih]
      have h' : ¬ f <+: c :: s := fun hh => h (List.isPrefixOf_iff_prefix.2 hh)
      constructor
      · rintro ⟨p, hp⟩
        right
        cases hw : wcsstr s f with
        | none => rw [hw] at hp; cases hp
        | some r => exact ⟨r, rfl⟩
      · rintro (hh | ⟨r, hr⟩)
        · exact absurd hh h'
        · exact ⟨r + 1, by rw [hr]; rfl⟩

theorem trim_trimmed (cs : List Nat) : Trimmed env.space cs (trim env cs) := by
  refine ⟨(cs.reverse.takeWhile env.space).reverse, ?_, ?_, ?_⟩
  · unfold trim
    rw [← List.reverse_append, List.takeWhile_append_dropWhile, List.reverse_reverse]
  · intro c hc
    rw [List.mem_reverse] at hc
    exact List.all_eq_true.1 (List.all_takeWhile (p := env.space) (l := cs.reverse)) c hc
  · intro c hc
    unfold trim at hc
    rw [List.getLast?_reverse] at hc
    have := List.head?_dropWhile_not env.space cs.reverse
    rw [hc] at this
    simpa using this

theorem trimmed_unique {space : Nat → Bool} {cs u v : List Nat} (hu : Trimmed space cs u) (hv : Trimmed space cs v) : u = v := by
  obtain ⟨a, h1, h2, h3⟩ := hu
  obtain ⟨b, h4, h5, h6⟩ := hv
  rw [h1] at h4
  rcases List.append_eq_append_iff.1 h4 with ⟨m, e1, e2⟩ | ⟨m, e1, e2⟩
  · rcases List.eq_nil_or_concat m with rfl | ⟨m', c, rfl⟩
    · simpa using e1.symm
    · have ha : space c = true := h2 c (by rw [e2]; simp)
      have hb := h6 c (by rw [e1]; simp)
      rw [ha] at hb; cases hb
  · rcases List.eq_nil_or_concat m with rfl | ⟨m', c, rfl⟩
    · simpa using e1
    · have ha : space c = true := h5 c (by rw [e2]; simp)
      have hb := h3 c (by rw [e1]; simp)
      rw [ha] at hb; cases hb

theorem cstr_id {cs : List Nat} (h : 0 ∉ cs) : cstr cs = cs := by
  unfold cstr
  induction cs with
  | nil => rfl
  | cons c cs ih =>
    have hc : c ≠ 0 := fun e => h (by rw [e]; exact List.mem_cons_self)
    rw [List.takeWhile_cons, if_pos (by simpa using hc), ih (fun hh => h (List.mem_cons_of_mem _ hh))]

theorem trim_sub (cs : List Nat) {c : Nat} (h : c ∈ trim env cs) : c ∈ cs := by
  obtain ⟨b, e, _⟩ := trim_trimmed (env := env) cs
  rw [e]; simp [h]

/-- What is decided about a line, as long as `Inv` holds. -/
def Decides (env : Env) (q : Query) (rx : Option (List Nat → Option (Nat × Nat))) (scr : List Line) (P : Line → Prop) (Inv : Option Nat → Nat → Prop) : Prop :=
  ∀ l ∈ scr, ∀ start len, Inv start len → ∃ fa, attrPart q l (textPart env q rx l start len).2.1 (textPart env q rx l start len).2.2 = some fa ∧
    (((textPart env q rx l start len).1 = true ∧ fa = true) ↔ P l) ∧ Inv (textPart env q rx l start len).2.1 (textPart env q rx l start len).2.2

theorem go_down {q : Query} {rx : Option (List Nat → Option (Nat × Nat))} {scr : List Line} {P : Line → Prop} {Inv : Option Nat → Nat → Prop}
    (hd : Decides env q rx scr P Inv) (n : Nat) : ∀ (k : Nat) (start : Option Nat) (len : Nat), Inv start len → k ≤ scr.length →
    (∃ i, Down scr P k (k + n) i ∧ go env q rx scr 1 n k start len = some i) ∨
    ((∀ i, ¬ Down scr P k (k + n) i) ∧ go env q rx scr 1 n k start len = some (if k + n ≤ scr.length then -1 else 0)) := by
  induction n with
  | zero =>
    intro k start len _ hk
    right
    refine ⟨fun i h => by have := h.1; have := h.2.1; omega, ?_⟩
    rw [go, if_pos (by omega)]
  | succ n ih =>
    intro k start len hi hk
    rw [go, if_neg (by omega)]
    simp only [Int.toNat_natCast]
    by_cases hlt : k < scr.length
    · rw [List.getElem?_eq_getElem hlt]
      obtain ⟨fa, h1, h2, h3⟩ := hd scr[k] (List.getElem_mem hlt) start len hi
      simp only [h1]
      by_cases hp : P scr[k]
      · rw [if_pos (h2.2 hp)]
        exact .inl ⟨k, ⟨Nat.le_refl _, by omega, ⟨_, List.getElem?_eq_getElem hlt, hp⟩, fun j l a b => by omega⟩, rfl⟩
      · rw [if_neg (fun h => hp (h2.1 h))]
        have hstep : ∀ i, Down scr P (k + 1) (k + 1 + n) i ↔ Down scr P k (k + (n + 1)) i := by
          intro i
          constructor
          · rintro ⟨a, b, c, d⟩
            refine ⟨by omega, by omega, c, fun j l e f g => ?_⟩
            by_cases hj : j = k
            · subst hj
              rw [List.getElem?_eq_getElem hlt] at g
              injection g with g
              rw [← g]; exact hp
            · exact d j l (by omega) f g
          · rintro ⟨a, b, ⟨l, c, c'⟩, d⟩
            have : i ≠ k := by
              rintro rfl
              rw [List.getElem?_eq_getElem hlt] at c
              injection c with c
              rw [c] at hp; exact hp c'
            exact ⟨by omega, by omega, ⟨l, c, c'⟩, fun j l e f g => d j l (by omega) f g⟩
        rcases ih (k + 1) _ _ h3 (by omega) with ⟨i, a, b⟩ | ⟨a, b⟩
        · exact .inl ⟨i, (hstep i).1 a, by rw [← b]; rfl⟩
        · refine .inr ⟨fun i h => a i ((hstep i).2 h), ?_⟩
          have e : k + 1 + n = k + (n + 1) := by omega
          rw [e] at b
          rw [← b]; rfl
    · have he : scr[k]? = none := List.getElem?_eq_none (by omega)
      rw [he]
      right
      refine ⟨?_, by rw [if_neg (by omega)]⟩
      rintro i ⟨a, b, ⟨l, c, _⟩, _⟩
      have : i < scr.length := (List.getElem?_eq_some_iff.1 c).1
      omega

theorem go_up {q : Query} {rx : Option (List Nat → Option (Nat × Nat))} {scr : List Line} {P : Line → Prop} {Inv : Option Nat → Nat → Prop}
    (hd : Decides env q rx scr P Inv) (k : Nat) : ∀ (start : Option Nat) (len : Nat), Inv start len → k < scr.length →
    (∃ i, Up scr P k i ∧ go env q rx scr (-1) (k + 1) k start len = some i) ∨
    ((∀ i, ¬ Up scr P k i) ∧ go env q rx scr (-1) (k + 1) k start len = some (-1)) := by
  induction k with
  | zero =>
    intro start len hi hk
    rw [go, if_neg (by omega)]
    simp only [Int.toNat_natCast]
    rw [List.getElem?_eq_getElem hk]
    obtain ⟨fa, h1, h2, h3⟩ := hd scr[0] (List.getElem_mem hk) start len hi
    simp only [h1]
    by_cases hp : P scr[0]
    · rw [if_pos (h2.2 hp)]
      exact .inl ⟨0, ⟨Nat.le_refl _, ⟨_, List.getElem?_eq_getElem hk, hp⟩, fun j l a b => by omega⟩, rfl⟩
    · rw [if_neg (fun h => hp (h2.1 h)), go]
      refine .inr ⟨?_, rfl⟩
      rintro i ⟨a, ⟨l, b, c⟩, _⟩
      have : i = 0 := by omega
      subst this
      rw [List.getElem?_eq_getElem hk] at b
      injection b with b
      rw [b] at hp; exact hp c
  | succ k ih =>
    intro start len hi hk
    rw [go, if_neg (by omega)]
    simp only [Int.toNat_natCast]
    rw [List.getElem?_eq_getElem hk]
    obtain ⟨fa, h1, h2, h3⟩ := hd scr[k + 1] (List.getElem_mem hk) start len hi
    simp only [h1]
    by_cases hp : P scr[k + 1]
    · rw [if_pos (h2.2 hp)]
      exact .inl ⟨k + 1, ⟨Nat.le_refl _, ⟨_, List.getElem?_eq_getElem hk, hp⟩, fun j l a b => by omega⟩, rfl⟩
    · rw [if_neg (fun h => hp (h2.1 h))]
      have hk' : ((k + 1 : Nat) : Int) + -1 = k := by omega
      rw [hk']
      have hstep : ∀ i, Up scr P k i ↔ Up scr P (k + 1) i := by
        intro i
        constructor
        · rintro ⟨a, c, d⟩
          refine ⟨by omega, c, fun j l e f g => ?_⟩
          by_cases hj : j = k + 1
          · subst hj
            rw [List.getElem?_eq_getElem hk] at g
            injection g with g
            rw [← g]; exact hp
          · exact d j l e (by omega) g
        · rintro ⟨a, ⟨l, c, c'⟩, d⟩
          have : i ≠ k + 1 := by
            rintro rfl
            rw [List.getElem?_eq_getElem hk] at c
            injection c with c
            rw [c] at hp; exact hp c'
          exact ⟨by omega, ⟨l, c, c'⟩, fun j l e f g => d j l e (by omega) g⟩
      rcases ih _ _ h3 (by omega) with ⟨i, a, b⟩ | ⟨a, b⟩
      · exact .inl ⟨i, (hstep i).1 a, b⟩
      · exact .inr ⟨fun i h => a i ((hstep i).2 h), b⟩

theorem short_id {n : Int} (h : -32768 ≤ n ∧ n < 32768) : short n = n := by unfold short; omega

/-- Both directions, for a query that decides. -/
theorem lua_eq {q : Query} {rx : Option (List Nat → Option (Nat × Nat))} {scr : List Line} {P : Line → Prop} {Inv : Option Nat → Nat → Prop} {width : Nat}
    (hd : Decides env q rx scr P Inv) (hi : Inv (some 0) width)
    (hgo : ∀ line distance : Int, findLine env q scr width line distance = go env q rx scr (if distance > 0 then 1 else -1) distance.natAbs line (some 0) width)
    (ha : q.attrs.length ≤ 32) {num arg : Int} (hn : 0 < num ∧ num ≤ scr.length) (hr : -32767 ≤ arg ∧ arg ≤ 32768) :
    ((∃ i, Up scr P (startLine num arg) i ∧ findLua env q scr width num arg (-1) = some (i + 1)) ∨
      ((∀ i, ¬ Up scr P (startLine num arg) i) ∧ findLua env q scr width num arg (-1) = some 0)) ∧
    ((∃ i, Down scr P (startLine num arg) (num.toNat + 1) i ∧ findLua env q scr width num arg 1 = some (i + 1)) ∨
      ((∀ i, ¬ Down scr P (startLine num arg) (num.toNat + 1) i) ∧ findLua env q scr width num arg 1 = some (if num < scr.length then 0 else 1))) := by
  have hs : max (min (short (arg - 1)) (num - 1)) 0 = (startLine num arg : Int) := by
    rw [short_id (by omega)]; unfold startLine; omega
  have hlt : (startLine num arg : Int) < num := by unfold startLine; omega
  constructor
  · have e1 : (0 - (startLine num arg : Int) - 1).natAbs = startLine num arg + 1 := by omega
    have e2 : ¬ (0 - (startLine num arg : Int) - 1 > 0) := by omega
    have e : findLua env q scr width num arg (-1) = (go env q rx scr (-1) (startLine num arg + 1) (startLine num arg) (some 0) width).map (· + 1) := by
      unfold findLua
      have h32 : ¬ q.attrs.length > 32 := by omega
      rw [if_neg h32]
      simp only [hs]
      rw [if_neg (by omega), hgo, e1, if_neg e2]
    rcases go_up hd (startLine num arg) (some 0) width hi (by omega) with ⟨i, a, b⟩ | ⟨a, b⟩
    · exact .inl ⟨i, a, by rw [e, b]; rfl⟩
    · exact .inr ⟨a, by rw [e, b]; rfl⟩
  · have e1 : (num - (startLine num arg : Int) + 1).natAbs = num.toNat + 1 - startLine num arg := by omega
    have e2 : num - (startLine num arg : Int) + 1 > 0 := by omega
    have e : findLua env q scr width num arg 1 = (go env q rx scr 1 (num.toNat + 1 - startLine num arg) (startLine num arg) (some 0) width).map (· + 1) := by
      unfold findLua
      have h32 : ¬ q.attrs.length > 32 := by omega
      rw [if_neg h32]
      simp only [hs]
      rw [if_pos (by omega), hgo, e1, if_pos e2]
    have e3 : startLine num arg + (num.toNat + 1 - startLine num arg) = num.toNat + 1 := by omega
    have := go_down hd (num.toNat + 1 - startLine num arg) (startLine num arg) (some 0) width hi (by omega)
    rw [e3] at this
    rcases this with ⟨i, a, b⟩ | ⟨a, b⟩
    · exact .inl ⟨i, a, by rw [e, b]; rfl⟩
    · refine .inr ⟨a, ?_⟩
      rw [e, b]
      by_cases hl : num < scr.length
      · have : num.toNat + 1 ≤ scr.length := by omega
        rw [if_pos hl, if_pos this]; rfl
      · have : ¬ num.toNat + 1 ≤ scr.length := by omega
        rw [if_neg hl, if_neg this]; rfl

end Clink.FindLine
