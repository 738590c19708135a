import Verif.Proof.ColorRound

/-! Codes that come from the user. -/

namespace Clink.Color

open Spec

/-- What the words say. -/
def Style.attr (s : Style) : Attr :=
  { reverse := s.reverse, bold := s.bold == some true, italic := s.italic, underline := s.underline, fg := s.fg, bg := s.bg }

/-- What has been written so far; `d39` and `d49`: the default colours were given. -/
structure Part (e : Nat) (any : Bool) (s : Style) (d39 d49 : Bool) (out : List Nat) : Prop where
  low : 1 ≤ e
  out : out = sp (s.attrWords ++ (if d39 then [bs "default"] else colWords s.fg) ++
    (if d49 then [bs "on", bs "default"] else if s.bg = .default then [] else (if any then [] else [bs "default"]) ++ [bs "on"] ++ colWords s.bg))
  any : any = (d39 || decide (s.fg ≠ .default))
  e1 : e ≤ 1 → s.reverse = false
  e2 : e ≤ 2 → s.bold = none
  e3 : e ≤ 3 → s.italic = false
  e4 : e ≤ 4 → s.underline = false
  e5 : e ≤ 5 → s.fg = .default ∧ d39 = false
  e6 : e ≤ 6 → s.bg = .default ∧ d49 = false
  d39 : d39 = true → s.fg = .default
  d49 : d49 = true → s.bg = .default
  fg : OkColour s.fg
  bg : OkColour s.bg

/-- The parts are numbers. -/
inductive Nums : List (List Nat) → List Nat → Prop where
  | nil : Nums [] []
  | cons {p ps} {n : Nat} {ns} (h : int p = some (n : Int)) (t : Nums ps ns) : Nums (p :: ps) (n :: ns)

theorem apply_one {n : Nat} (h1 : n ≠ 38) (h2 : n ≠ 48) (l : List Nat) (a : Attr) : apply (n :: l) a = apply l (one n a) := by
  rw [apply]
  · intro r g b l' e; exact absurd e h1
  · intro r g b l' e; exact absurd e h2

theorem parse24_inv {parts rest : List (List Nat)} {buf : List Nat} (h : parse24 parts = some (some (buf, rest))) :
    ∃ two r g b, parts = two :: r :: g :: b :: rest ∧ int two = some 2 ∧
      ∃ x y z : Nat, int r = some (x : Int) ∧ int g = some (y : Int) ∧ int b = some (z : Int) ∧ x < 256 ∧ y < 256 ∧ z < 256 ∧
        buf = 35 :: hex2 x ++ hex2 y ++ hex2 z := by
  unfold parse24 at h
  split at h
  · cases h
  · obtain ⟨x2, h2, h⟩ := Option.bind_eq_some_iff.1 h
    split at h
    · cases h
    · rename_i n2
      split at h
      · cases h
      · obtain ⟨x, hx, h⟩ := Option.bind_eq_some_iff.1 h
        split at h
        · cases h
        · split at h
          · cases h
          · obtain ⟨y, hy, h⟩ := Option.bind_eq_some_iff.1 h
            split at h
            · cases h
            · split at h
              · cases h
              · obtain ⟨z, hz, h⟩ := Option.bind_eq_some_iff.1 h
                split at h
                · cases h
                · cases h
                  refine ⟨_, _, _, _, rfl, by rw [h2]; simp at n2; rw [n2], x.toNat, y.toNat, z.toNat, ?_, ?_, ?_, by omega, by omega, by omega, rfl⟩
                  · rw [hx]; congr 1; omega
                  · rw [hy]; congr 1; omega
                  · rw [hz]; congr 1; omega

theorem colorName_fg {x : Nat} (h : (30 ≤ x ∧ x < 38) ∨ (90 ≤ x ∧ x < 98)) :
    ∃ n, n < 16 ∧ colorName x = sp (colWords (.basic n)) ∧ ∀ a, one x a = { a with fg := .basic n } := by
  refine ⟨if 90 ≤ x then x - 82 else x - 30, by split <;> omega, ?_, ?_⟩
  · rw [← colorName_eq (by split <;> omega)]
    congr 1
    split <;> split <;> omega
  · intro a
    unfold one
    rcases h with h | h
    · repeat rw [if_neg (by omega)]
      rw [if_pos (by omega)]
      repeat rw [if_neg (by omega)]
    · repeat rw [if_neg (by omega)]
      rw [if_pos (by omega), if_pos (by omega), show x - 90 + 8 = x - 82 by omega]

theorem colorName_bg {x : Nat} (h : (40 ≤ x ∧ x < 48) ∨ (100 ≤ x ∧ x < 108)) :
    ∃ n, n < 16 ∧ colorName (x - 10) = sp (colWords (.basic n)) ∧ ∀ a, one x a = { a with bg := .basic n } := by
  refine ⟨if 100 ≤ x then x - 92 else x - 40, by split <;> omega, ?_, ?_⟩
  · rw [← colorName_eq (by split <;> omega)]
    congr 1
    split <;> split <;> omega
  · intro a
    unfold one
    rcases h with h | h
    · repeat rw [if_neg (by omega)]
      rw [if_pos (by omega)]
      repeat rw [if_neg (by omega)]
    · repeat rw [if_neg (by omega)]
      rw [if_pos (by omega), if_pos (by omega), show x - 100 + 8 = x - 92 by omega]

theorem sp_one (w : List Nat) : sp [w] = w ++ [32] := by simp [sp]

/-- One number in `format_color`. -/
def formatBody (compat : Bool) (expected : Nat) (anyFg : Bool) (out : List Nat) (x : Nat) (parts : List (List Nat)) : Option (Option (List Nat)) :=
  if 7 ≤ expected then some none
  else if expected = 0 ∧ x ≠ 0 then some none
  else if x = 0 then if 0 < expected then some none else formatLoop compat 1 anyFg out parts
  else if x = 7 then if 1 < expected then some none else formatLoop compat 2 anyFg (out ++ bs "reverse ") parts
  else if x = 1 ∨ x = 22 then
    if 2 < expected then some none else formatLoop compat 3 anyFg (out ++ if x = 1 then bs "bold " else bs "nobold ") parts
  else if x = 3 then if 3 < expected then some none else formatLoop compat 4 anyFg (out ++ bs "italic ") parts
  else if x = 4 then if 4 < expected then some none else formatLoop compat 5 anyFg (out ++ bs "underline ") parts
  else if (30 ≤ x ∧ x < 38) ∨ (90 ≤ x ∧ x < 98) then
    if 5 < expected then some none else formatLoop compat 6 true (out ++ colorName x) parts
  else if x = 38 ∧ compat = false then
    if 5 < expected then some none
    else
      match _h : parse24 parts with
      | none => none
      | some none => some none
      | some (some (buf, rest)) =>
        formatLoop compat 6 true (out ++ buf ++ bs " ") rest
  else if x = 39 then if 5 < expected then some none else formatLoop compat 6 true (out ++ bs "default ") parts
  else if (40 ≤ x ∧ x < 48) ∨ (100 ≤ x ∧ x < 108) then
    if 6 < expected then some none
    else formatLoop compat 7 anyFg (out ++ (if anyFg then [] else bs "default ") ++ bs "on " ++ colorName (x - 10)) parts
  else if x = 48 ∧ compat = false then
    if 6 < expected then some none
    else
      match _h : parse24 parts with
      | none => none
      | some none => some none
      | some (some (buf, rest)) =>
        formatLoop compat 7 anyFg (out ++ (if anyFg then [] else bs "default ") ++ bs "on " ++ buf ++ bs " ") rest
  else if x = 49 then if 6 < expected then some none else formatLoop compat 7 anyFg (out ++ bs "on default ") parts
  else some none

theorem formatLoop_cons {compat : Bool} {e : Nat} {any : Bool} {out p : List Nat} {parts : List (List Nat)} {x : Nat} (hi : int p = some (x : Int)) :
    formatLoop compat e any out (p :: parts) = formatBody compat e any out x parts := by
  rw [formatLoop, hi]
  show (if (x : Int) < 0 then some none else _) = _
  rw [if_neg (by omega)]
  rfl

theorem formatLoop_neg {compat : Bool} {e : Nat} {any : Bool} {out p : List Nat} {parts : List (List Nat)} {z : Int} (hi : int p = some z) (hz : z < 0) :
    formatLoop compat e any out (p :: parts) = some none := by
  rw [formatLoop, hi]
  show (if z < 0 then some none else _) = _
  rw [if_pos hz]

theorem format_inv (compat : Bool) (e : Nat) (any : Bool) (out : List Nat) (parts : List (List Nat)) (out' : List Nat)
    (h : formatLoop compat e any out parts = some (some out')) (s : Style) (d39 d49 : Bool) (inv : Part e any s d39 d49 out) :
    ∃ ns e' any' s' d39' d49', Nums parts ns ∧ Part e' any' s' d39' d49' out' ∧ apply ns s.attr = s'.attr := by
  obtain ⟨n, hn⟩ : ∃ n, n = parts.length := ⟨_, rfl⟩
  induction n using Nat.strongRecOn generalizing e any out parts s d39 d49 with
  | _ n ih =>
    cases parts with
    | nil =>
      rw [formatLoop] at h
      cases h
      exact ⟨[], e, any, s, d39, d49, .nil, inv, rfl⟩
    | cons p parts =>
      have hlen : parts.length < n := by rw [hn]; simp
      have go : ∀ (x : Nat) (e2 : Nat) (any2 : Bool) (out2 : List Nat) (s2 : Style) (d39' d49' : Bool), int p = some (x : Int) → x ≠ 38 → x ≠ 48 →
          one x s.attr = s2.attr → Part e2 any2 s2 d39' d49' out2 → formatLoop compat e2 any2 out2 parts = some (some out') →
          ∃ ns e' any' s' d39' d49', Nums (p :: parts) ns ∧ Part e' any' s' d39' d49' out' ∧ apply ns s.attr = s'.attr := by
        intro x e2 any2 out2 s2 a b hi h38 h48 ho hp hf
        obtain ⟨ns, e', any', s', c, d, g1, g2, g3⟩ := ih _ hlen e2 any2 out2 parts hf s2 a b hp rfl
        refine ⟨x :: ns, e', any', s', c, d, .cons hi g1, g2, ?_⟩
        rw [apply_one h38 h48, ho, g3]
      cases hi : int p with
      | none =>
        rw [formatLoop, hi] at h
        cases h
      | some z =>
        by_cases hz : z < 0
        · rw [formatLoop_neg hi hz] at h
          cases h
        obtain ⟨x, hx⟩ : ∃ x : Nat, z = (x : Int) := ⟨z.toNat, by omega⟩
        subst hx
        rw [formatLoop_cons hi] at h
        unfold formatBody at h
        have hlow := inv.low
        by_cases hx0 : 7 ≤ e
        · rw [if_pos hx0] at h
          cases h
        rw [if_neg hx0] at h
        by_cases hx1 : e = 0 ∧ x ≠ 0
        · rw [if_pos hx1] at h
          cases h
        rw [if_neg hx1] at h
        by_cases hx2 : x = 0
        · rw [if_pos hx2] at h
          -- 0
          by_cases hy : 0 < e
          · rw [if_pos hy] at h; cases h
          rw [if_neg hy] at h
          · omega
        rw [if_neg hx2] at h
        by_cases hx3 : x = 7
        · rw [if_pos hx3] at h
          -- 7
          have hx := hx3
          subst hx
          by_cases hy : 1 < e
          · rw [if_pos hy] at h; cases h
          rw [if_neg hy] at h
          refine go 7 _ _ _ { s with reverse := true } d39 d49 hi (by decide) (by decide) rfl ?_ h
          have i1 := inv.e1 (by omega)
          have i2 := inv.e2 (by omega)
          have i3 := inv.e3 (by omega)
          have i4 := inv.e4 (by omega)
          obtain ⟨i5, i5'⟩ := inv.e5 (by omega)
          obtain ⟨i6, i6'⟩ := inv.e6 (by omega)
          refine ⟨by omega, ?_, inv.any, fun h => by omega, fun _ => i2, fun _ => i3, fun _ => i4, fun _ => ⟨i5, i5'⟩, fun _ => ⟨i6, i6'⟩, inv.d39, inv.d49,
            inv.fg, inv.bg⟩
          rw [inv.out]
          simp [Style.attrWords, i1, i2, i3, i4, i5, i5', i6, i6', colWords, boldWords, sp]
          rfl
        rw [if_neg hx3] at h
        by_cases hx4 : x = 1 ∨ x = 22
        · rw [if_pos hx4] at h
          -- 1, 22
          have hx := hx4
          by_cases hy : 2 < e
          · rw [if_pos hy] at h; cases h
          rw [if_neg hy] at h
          refine go x _ _ _ { s with bold := some (decide (x = 1)) } d39 d49 hi (by omega) (by omega) ?_ ?_ h
          · have i2 := inv.e2 (by omega)
            rcases hx with rfl | rfl <;> simp [one, Style.attr]
          · have i2 := inv.e2 (by omega)
            have i3 := inv.e3 (by omega)
            have i4 := inv.e4 (by omega)
            obtain ⟨i5, i5'⟩ := inv.e5 (by omega)
            obtain ⟨i6, i6'⟩ := inv.e6 (by omega)
            refine ⟨by omega, ?_, inv.any, fun h => by omega, fun h => by omega, fun _ => i3, fun _ => i4, fun _ => ⟨i5, i5'⟩, fun _ => ⟨i6, i6'⟩, inv.d39, inv.d49,
              inv.fg, inv.bg⟩
            rw [inv.out]
            rcases hx with rfl | rfl
            · simp [Style.attrWords, i2, i3, i4, i5, i5', i6, i6', colWords, boldWords, sp_append]
              rfl
            · simp [Style.attrWords, i2, i3, i4, i5, i5', i6, i6', colWords, boldWords, sp_append]
              rfl
        rw [if_neg hx4] at h
        by_cases hx5 : x = 3
        · rw [if_pos hx5] at h
          -- 3
          have hx := hx5
          subst hx
          by_cases hy : 3 < e
          · rw [if_pos hy] at h; cases h
          rw [if_neg hy] at h
          refine go 3 _ _ _ { s with italic := true } d39 d49 hi (by decide) (by decide) rfl ?_ h
          have i3 := inv.e3 (by omega)
          have i4 := inv.e4 (by omega)
          obtain ⟨i5, i5'⟩ := inv.e5 (by omega)
          obtain ⟨i6, i6'⟩ := inv.e6 (by omega)
          refine ⟨by omega, ?_, inv.any, fun h => by omega, fun h => by omega, fun h => by omega, fun _ => i4, fun _ => ⟨i5, i5'⟩, fun _ => ⟨i6, i6'⟩,
            inv.d39, inv.d49, inv.fg, inv.bg⟩
          rw [inv.out]
          simp [Style.attrWords, i3, i4, i5, i5', i6, i6', colWords, sp_append]
          rfl
        rw [if_neg hx5] at h
        by_cases hx6 : x = 4
        · rw [if_pos hx6] at h
          -- 4
          have hx := hx6
          subst hx
          by_cases hy : 4 < e
          · rw [if_pos hy] at h; cases h
          rw [if_neg hy] at h
          refine go 4 _ _ _ { s with underline := true } d39 d49 hi (by decide) (by decide) rfl ?_ h
          have i4 := inv.e4 (by omega)
          obtain ⟨i5, i5'⟩ := inv.e5 (by omega)
          obtain ⟨i6, i6'⟩ := inv.e6 (by omega)
          refine ⟨by omega, ?_, inv.any, fun h => by omega, fun h => by omega, fun h => by omega, fun h => by omega, fun _ => ⟨i5, i5'⟩, fun _ => ⟨i6, i6'⟩,
            inv.d39, inv.d49, inv.fg, inv.bg⟩
          rw [inv.out]
          simp [Style.attrWords, i4, i5, i5', i6, i6', colWords, sp_append]
          rfl
        rw [if_neg hx6] at h
        by_cases hx7 : (30 ≤ x ∧ x < 38) ∨ (90 ≤ x ∧ x < 98)
        · rw [if_pos hx7] at h
          -- colours of the text
          have hx := hx7
          by_cases hy : 5 < e
          · rw [if_pos hy] at h; cases h
          rw [if_neg hy] at h
          obtain ⟨n, hn', hname, hone⟩ := colorName_fg hx
          obtain ⟨i5, i5'⟩ := inv.e5 (by omega)
          obtain ⟨i6, i6'⟩ := inv.e6 (by omega)
          refine go x _ _ _ { s with fg := .basic n } d39 d49 hi (by omega) (by omega) (hone _) ?_ h
          refine ⟨by omega, ?_, ?_, fun h => by omega, fun h => by omega, fun h => by omega, fun h => by omega, fun h => by omega, fun _ => ⟨i6, i6'⟩,
            fun h => (by rw [i5'] at h; cases h), inv.d49, hn', inv.bg⟩
          · rw [inv.out, hname]
            simp [Style.attrWords, i5, i5', i6, i6', sp_append]
            rfl
          · simp
        rw [if_neg hx7] at h
        by_cases hx8 : x = 38 ∧ compat = false
        · rw [if_pos hx8] at h
          -- 38
          have hx := hx8
          obtain ⟨rfl, hcomp⟩ := hx
          by_cases hy : 5 < e
          · rw [if_pos hy] at h; cases h
          rw [if_neg hy] at h
          split at h
          · cases h
          · cases h
          · rename_i buf rest hp24
            obtain ⟨two, r, g, b, rfl, j2, x, y, z, jx, jy, jz, lx, ly, lz, rfl⟩ := parse24_inv hp24
            obtain ⟨i5, i5'⟩ := inv.e5 (by omega)
            obtain ⟨i6, i6'⟩ := inv.e6 (by omega)
            obtain ⟨ns, e', any', s', c, d, g1, g2, g3⟩ := ih _ (by simp only [List.length_cons] at hlen; omega) _ _ _ rest h { s with fg := .rgb x y z } d39 d49
              ⟨by omega, by
                rw [inv.out]
                simp [Style.attrWords, i5, i5', i6, i6', sp_append, sp_one, colWords]
                rfl, by simp, fun h => by omega, fun h => by omega, fun h => by omega, fun h => by omega, fun h => by omega, fun _ => ⟨i6, i6'⟩,
                fun h => (by rw [i5'] at h; cases h), inv.d49, ⟨lx, ly, lz⟩, inv.bg⟩ rfl
            refine ⟨38 :: 2 :: x :: y :: z :: ns, e', any', s', c, d, .cons hi (.cons j2 (.cons jx (.cons jy (.cons jz g1)))), g2, ?_⟩
            rw [apply]
            exact g3
        rw [if_neg hx8] at h
        by_cases hx9 : x = 39
        · rw [if_pos hx9] at h
          -- 39
          have hx := hx9
          subst hx
          by_cases hy : 5 < e
          · rw [if_pos hy] at h; cases h
          rw [if_neg hy] at h
          obtain ⟨i5, i5'⟩ := inv.e5 (by omega)
          obtain ⟨i6, i6'⟩ := inv.e6 (by omega)
          refine go 39 _ _ _ s true d49 hi (by decide) (by decide) ?_ ?_ h
          · simp [one, Style.attr, i5]
          · refine ⟨by omega, ?_, by simp, fun h => by omega, fun h => by omega, fun h => by omega, fun h => by omega, fun h => by omega, fun _ => ⟨i6, i6'⟩,
              fun _ => i5, inv.d49, inv.fg, inv.bg⟩
            rw [inv.out]
            simp [i5, i5', i6, i6', colWords, sp_append]
            rfl
        rw [if_neg hx9] at h
        by_cases hx10 : (40 ≤ x ∧ x < 48) ∨ (100 ≤ x ∧ x < 108)
        · rw [if_pos hx10] at h
          -- colours of the background
          have hx := hx10
          by_cases hy : 6 < e
          · rw [if_pos hy] at h; cases h
          rw [if_neg hy] at h
          obtain ⟨n, hn', hname, hone⟩ := colorName_bg hx
          obtain ⟨i6, i6'⟩ := inv.e6 (by omega)
          refine go x _ _ _ { s with bg := .basic n } d39 d49 hi (by omega) (by omega) (hone _) ?_ h
          refine ⟨by omega, ?_, inv.any, fun h => by omega, fun h => by omega, fun h => by omega, fun h => by omega, fun h => by omega, fun h => by omega,
            inv.d39, fun h => (by rw [i6'] at h; cases h), inv.fg, hn'⟩
          rw [inv.out, hname]
          simp [Style.attrWords, i6, i6', sp_append]
          cases any <;> rfl
        rw [if_neg hx10] at h
        by_cases hx11 : x = 48 ∧ compat = false
        · rw [if_pos hx11] at h
          -- 48
          have hx := hx11
          obtain ⟨rfl, hcomp⟩ := hx
          by_cases hy : 6 < e
          · rw [if_pos hy] at h; cases h
          rw [if_neg hy] at h
          split at h
          · cases h
          · cases h
          · rename_i buf rest hp24
            obtain ⟨two, r, g, b, rfl, j2, x, y, z, jx, jy, jz, lx, ly, lz, rfl⟩ := parse24_inv hp24
            obtain ⟨i6, i6'⟩ := inv.e6 (by omega)
            obtain ⟨ns, e', any', s', c, d, g1, g2, g3⟩ := ih _ (by simp only [List.length_cons] at hlen; omega) _ _ _ rest h { s with bg := .rgb x y z } d39 d49
              ⟨by omega, by
                rw [inv.out]
                simp [Style.attrWords, i6, i6', sp_append, sp_one, colWords]
                cases any <;> rfl, inv.any, fun h => by omega, fun h => by omega, fun h => by omega, fun h => by omega, fun h => by omega,
                fun h => by omega, inv.d39, fun h => (by rw [i6'] at h; cases h), inv.fg, ⟨lx, ly, lz⟩⟩ rfl
            refine ⟨48 :: 2 :: x :: y :: z :: ns, e', any', s', c, d, .cons hi (.cons j2 (.cons jx (.cons jy (.cons jz g1)))), g2, ?_⟩
            rw [apply]
            exact g3
        rw [if_neg hx11] at h
        by_cases hx12 : x = 49
        · rw [if_pos hx12] at h
          -- 49
          have hx := hx12
          subst hx
          by_cases hy : 6 < e
          · rw [if_pos hy] at h; cases h
          rw [if_neg hy] at h
          obtain ⟨i6, i6'⟩ := inv.e6 (by omega)
          refine go 49 _ _ _ s d39 true hi (by decide) (by decide) ?_ ?_ h
          · simp [one, Style.attr, i6]
          · refine ⟨by omega, ?_, inv.any, fun h => by omega, fun h => by omega, fun h => by omega, fun h => by omega, fun h => by omega, fun h => by omega,
              inv.d39, fun _ => i6, inv.fg, inv.bg⟩
            rw [inv.out]
            simp [i6, i6', sp_append]
            rfl
        · rw [if_neg hx12] at h; cases h

/-- The end of `format_color`. -/
def finish (out : List Nat) : List Nat :=
  if out = [] ∨ out = bs "default on default " then bs "default"
  else
    trimBlanks
      (match stripEnd out (bs "default on default ") with
       | some s => s
       | none => (stripEnd out (bs "on default ")).getD out)

theorem format_finish {compat : Bool} {code out : List Nat} (hne : code ≠ [])
    (h : formatLoop compat 0 false [] (Tok.tokens Utf.iter8 [59] code) = some (some out)) : format compat code = some (finish out) := by
  unfold format
  rw [if_neg hne, h]
  rfl

theorem text_zero {s : Style} (h1 : OkColour s.fg) (h2 : OkColour s.bg) (hw : s.words = []) : s.text = bs "0" := by
  have hk : s.kinds = [] := by
    have := kinds_mean s h1 h2
    rw [hw] at this
    cases h : s.kinds with
    | nil => rfl
    | cons k ks => rw [h] at this; cases this
  obtain ⟨t, ht, hc⟩ := kinds_code s h1 h2
  rw [hk] at ht
  cases ht
  rw [← hc]
  decide +kernel

/-- The words of a style are read again. -/
theorem trim_parse {s : Style} (h1 : OkColour s.fg) (h2 : OkColour s.bg) (hw : s.words ≠ []) : parse (trimBlanks (sp s.words)) = some s.text := by
  obtain ⟨o1, o2⟩ := words_ok s h1 h2
  obtain ⟨l, w, c, hl, hc1, hc2⟩ := o2 hw
  have hsp : sp s.words = (sp l ++ w) ++ [c, 32] := by
    rw [hl, sp_append]
    simp [sp]
  have hwc : WordOk (w ++ [c]) := o1 _ (by rw [hl]; simp)
  have hlo : ∀ v ∈ l, WordOk v := fun v hv => o1 v (by rw [hl]; simp [hv])
  obtain ⟨t, ht, hc⟩ := kinds_code s h1 h2
  have hw2 := words_sp hlo hwc
  rw [← hl] at hw2
  rw [hsp, trim_one _ hc2, List.append_assoc,
    parse_words (by simp) (Tok.tokens_words (by decide) hw2 (sp_ascii hlo hwc)) (kinds_mean s h1 h2), ht, Option.map_some, hc]

theorem last_two {ws : List (List Nat)} (h : LastOk ws) : ∃ X c, sp ws = X ++ [c, 32] ∧ c ≠ 116 ∧ c ≠ 32 := by
  obtain ⟨l, w, c, rfl, hc⟩ := h
  refine ⟨sp l ++ w, c, ?_, hc⟩
  rw [sp_append]
  simp [sp]

theorem stripEnd_diff (X : List Nat) {c d : Nat} (hc : c ≠ d) (y z : List Nat) : stripEnd (X ++ c :: z) (y ++ d :: z) = none := by
  unfold stripEnd
  rw [if_neg]
  rintro ⟨-, h⟩
  obtain ⟨t, h⟩ := List.isSuffixOf_iff_suffix.1 h
  have h : (t ++ y) ++ d :: z = X ++ c :: z := by rw [← h]; simp
  have := (List.append_inj' h rfl).2
  simp at this
  exact hc this.symm

theorem ne_diff (X : List Nat) {c d : Nat} (hc : c ≠ d) (y z : List Nat) : X ++ c :: z ≠ y ++ d :: z := by
  intro h
  have := (List.append_inj' h rfl).2
  simp at this
  exact hc this

theorem stripEnd_some (X : List Nat) (hx : X ≠ []) (y : List Nat) : stripEnd (X ++ y) y = some X := by
  unfold stripEnd
  have : 0 < X.length := List.length_pos_iff.2 hx
  rw [if_pos ⟨by simp; exact this, List.isSuffixOf_iff_suffix.2 ⟨X, rfl⟩⟩]
  simp

theorem finish_words {s : Style} (h1 : OkColour s.fg) (h2 : OkColour s.bg) : parse (finish (sp s.words)) = some s.text := by
  by_cases hw : s.words = []
  · rw [hw, text_zero h1 h2 hw]
    decide +kernel
  · obtain ⟨X, c, hX, hc1, hc2⟩ := last_two ((words_ok s h1 h2).2 hw)
    have := trim_parse h1 h2 hw
    unfold finish
    rw [if_neg]
    · rw [hX] at this ⊢
      rw [show bs "default on default " = bs "default on defaul" ++ [116, 32] from rfl, stripEnd_none _ hc1,
          show bs "on default " = bs "on defaul" ++ [116, 32] from rfl, stripEnd_none _ hc1]
      exact this
    · rintro (h | h)
      · rw [hX] at h; simp at h
      · rw [hX] at h
        exact ne_diff X hc1 (bs "default on defaul") [32] h

theorem attr_last {s : Style} (h : s.attrWords ≠ []) : ∃ X c, sp s.attrWords = X ++ [c, 32] ∧ c ≠ 110 := by
  have hc : ∀ w ∈ [bs "reverse", bs "bold", bs "nobold", bs "italic", bs "underline"], w ≠ [] ∧ w.getLast? ≠ some 110 := by decide +kernel
  have hsub : ∀ w ∈ s.attrWords, w ∈ [bs "reverse", bs "bold", bs "nobold", bs "italic", bs "underline"] := by
    unfold Style.attrWords
    rcases s.bold with _ | _ | _ <;> cases s.reverse <;> cases s.italic <;> cases s.underline <;> simp [boldWords]
  rcases snoc_cases s.attrWords with h' | ⟨a, w, h'⟩
  · exact absurd h' h
  · obtain ⟨w1, w2⟩ := hc w (hsub w (by rw [h']; simp))
    rcases snoc_cases w with rfl | ⟨v, c, rfl⟩
    · exact absurd rfl w1
    · refine ⟨sp a ++ v, c, ?_, by simpa using w2⟩
      rw [h', sp_append]
      simp [sp]

/-- The description of a code with default colours. -/
theorem finish_part {e : Nat} {any : Bool} {s : Style} {d39 d49 : Bool} {out : List Nat} (p : Part e any s d39 d49 out) :
    parse (finish out) = some s.text := by
  have h1 := p.fg
  have h2 := p.bg
  have ho := p.out
  have hwords : s.words = s.attrWords ++ colWords s.fg ++ s.backWords := rfl
  cases d49 with
  | false =>
    cases d39 with
    | false =>
      have : out = sp s.words := by
        rw [ho, hwords]
        congr 1
        unfold Style.backWords
        rw [p.any]
        by_cases hf : s.fg = .default <;> simp [hf]
      rw [this]
      exact finish_words h1 h2
    | true =>
      have hf := p.d39 rfl
      by_cases hb : s.bg = .default
      · have hw : s.words = s.attrWords := by
          rw [hwords]
          unfold Style.backWords
          rw [hf, hb]
          simp [colWords]
        have ho : out = sp s.attrWords ++ bs "default " := by
          rw [ho, hb]
          simp [sp_append]
          rfl
        by_cases ha : s.attrWords = []
        · rw [ho, ha, text_zero h1 h2 (by rw [hw, ha])]
          decide +kernel
        · obtain ⟨X, c, hX, hc⟩ := attr_last ha
          have ho' : out = X ++ c :: (32 :: bs "default ") := by rw [ho, hX]; simp
          have hfin : finish out = sp s.attrWords ++ bs "default" := by
            unfold finish
            rw [if_neg]
            · rw [ho', show bs "default on default " = bs "default o" ++ 110 :: (32 :: bs "default ") from rfl, stripEnd_diff X hc,
                show bs "on default " = bs "o" ++ 110 :: (32 :: bs "default ") from rfl, stripEnd_diff X hc]
              simp only [Option.getD_none]
              rw [show X ++ c :: 32 :: bs "default " = (X ++ c :: 32 :: bs "defaul") ++ [116, 32] by simp [bs], trim_one _ (by decide), hX]
              simp [bs]
            · rintro (h | h)
              · rw [ho'] at h; simp at h
              · rw [ho'] at h
                exact ne_diff X hc (bs "default o") (32 :: bs "default ") h
          rw [hfin]
          have hm : MeanAll (s.attrWords ++ [bs "default"]) (s.attrKinds ++ [.default]) := by
            refine meanAll_append ?_ (mean_one (by decide +kernel))
            have := kinds_mean s h1 h2
            have hk : s.kinds = s.attrKinds := by
              unfold Style.kinds Style.backKinds
              rw [hf, hb]
              simp [colKinds]
            rw [hw, hk] at this
            exact this
          have hd : WordOk (bs "default") := by decide +kernel
          have ho1 := (attrWords_ok s).1
          rw [parse_words (by simp [bs]) (Tok.tokens_words (by decide) (words_sp ho1 hd) (sp_ascii ho1 hd)) hm, stepsK_append, attrKinds_st,
            Option.bind_some]
          obtain ⟨t, ht, hc⟩ := kinds_code s h1 h2
          have hk : s.kinds = s.attrKinds := by
            unfold Style.kinds Style.backKinds
            rw [hf, hb]
            simp [colKinds]
          rw [hk, attrKinds_st] at ht
          cases ht
          rw [← hc]
          rfl
      · have : out = sp s.words := by
          rw [ho, hwords]
          congr 1
          unfold Style.backWords
          rw [p.any, hf]
          simp [hb, colWords]
        rw [this]
        exact finish_words h1 h2
  | true =>
    have hb := p.d49 rfl
    cases d39 with
    | true =>
      have hf := p.d39 rfl
      have hw : s.words = s.attrWords := by
        rw [hwords]
        unfold Style.backWords
        rw [hf, hb]
        simp [colWords]
      have ho : out = sp s.attrWords ++ bs "default on default " := by
        rw [ho]
        simp [sp_append]
        rfl
      by_cases ha : s.attrWords = []
      · rw [ho, ha, text_zero h1 h2 (by rw [hw, ha])]
        decide +kernel
      · have hne : sp s.attrWords ≠ [] := by
          obtain ⟨X, c, hX, -⟩ := attr_last ha
          rw [hX]
          simp
        have := trim_parse h1 h2 (by rw [hw]; exact ha)
        rw [hw] at this
        unfold finish
        rw [if_neg, ho, stripEnd_some _ hne]
        · exact this
        · rintro (h | h)
          · rw [ho] at h; simp [bs] at h
          · rw [ho] at h
            have := congrArg List.length h
            have h0 : 0 < (sp s.attrWords).length := List.length_pos_iff.2 hne
            rw [List.length_append] at this
            omega
    | false =>
      have hw : s.words = s.attrWords ++ colWords s.fg := by
        rw [hwords]
        unfold Style.backWords
        rw [if_pos hb, List.append_nil]
      have ho : out = sp s.words ++ bs "on default " := by
        rw [ho, hw]
        simp [sp_append]
        rfl
      by_cases ha : s.words = []
      · rw [ho, ha, text_zero h1 h2 ha]
        decide +kernel
      · obtain ⟨X, c, hX, hc1, hc2⟩ := last_two ((words_ok s h1 h2).2 ha)
        have ho' : out = X ++ c :: (32 :: bs "on default ") := by rw [ho, hX]; simp
        have hne : sp s.words ≠ [] := by rw [hX]; simp
        have := trim_parse h1 h2 ha
        unfold finish
        rw [if_neg]
        · have : stripEnd out (bs "default on default ") = none := by
            rw [ho', show bs "default on default " = bs "defaul" ++ 116 :: (32 :: bs "on default ") from rfl]
            exact stripEnd_diff X hc1 _ _
          rw [this]
          simp only
          rw [ho, stripEnd_some _ hne]
          assumption
        · rintro (h | h)
          · rw [ho'] at h; simp at h
          · rw [ho'] at h
            exact ne_diff X hc1 (bs "defaul") (32 :: bs "on default ") h

/-- No number overflows. -/
theorem formatLoop_defined (compat : Bool) (e : Nat) (any : Bool) (out : List Nat) (parts : List (List Nat)) (h : ∀ p ∈ parts, int p ≠ none) :
    formatLoop compat e any out parts ≠ none := by
  obtain ⟨n, hn⟩ : ∃ n, n = parts.length := ⟨_, rfl⟩
  have h24 : ∀ parts : List (List Nat), (∀ p ∈ parts, int p ≠ none) → parse24 parts ≠ none := by
    intro parts h
    unfold parse24
    split
    · simp
    · rename_i two parts
      obtain ⟨x, hx⟩ := Option.ne_none_iff_exists'.1 (h two (by simp))
      rw [hx, Option.bind_some]
      split
      · simp
      · split
        · simp
        · rename_i r parts
          obtain ⟨x, hx⟩ := Option.ne_none_iff_exists'.1 (h r (by simp))
          rw [hx, Option.bind_some]
          split
          · simp
          · split
            · simp
            · rename_i g parts
              obtain ⟨x, hx⟩ := Option.ne_none_iff_exists'.1 (h g (by simp))
              rw [hx, Option.bind_some]
              split
              · simp
              · split
                · simp
                · rename_i b parts
                  obtain ⟨x, hx⟩ := Option.ne_none_iff_exists'.1 (h b (by simp))
                  rw [hx, Option.bind_some]
                  split <;> simp
  induction n using Nat.strongRecOn generalizing e any out parts with
  | _ n ih =>
    cases parts with
    | nil => rw [formatLoop]; simp
    | cons p parts =>
      have hlen : parts.length < n := by rw [hn]; simp
      have hp : ∀ q ∈ parts, int q ≠ none := fun q hq => h q (List.mem_cons_of_mem _ hq)
      obtain ⟨z, hz⟩ := Option.ne_none_iff_exists'.1 (h p (by simp))
      by_cases hneg : z < 0
      · rw [formatLoop_neg hz hneg]; simp
      · obtain ⟨x, hx⟩ : ∃ x : Nat, z = (x : Int) := ⟨z.toNat, by omega⟩
        subst hx
        rw [formatLoop_cons hz]
        have go : ∀ e any out, formatLoop compat e any out parts ≠ none := fun e any out => ih _ hlen e any out parts hp rfl
        have pick : ∀ (c : Prop) [Decidable c] (a b : Option (Option (List Nat))), a ≠ none → b ≠ none → (if c then a else b) ≠ none := by
          intro c _ a b ha hb
          split
          · exact ha
          · exact hb
        have sn : (some none : Option (Option (List Nat))) ≠ none := by simp
        have g24 : ∀ e any (f : List Nat → List Nat), (match _h : parse24 parts with
            | none => none
            | some none => some none
            | some (some (buf, rest)) => formatLoop compat e any (f buf) rest) ≠ none := by
          intro e any f
          split
          · rename_i hh; exact absurd hh (h24 parts hp)
          · simp
          · rename_i buf rest hh
            have hl := parse24_lt hh
            refine ih _ (by omega) e any _ rest ?_ rfl
            obtain ⟨two, r, g, b, rfl, -⟩ := parse24_inv hh
            intro q hq
            exact hp q (by simp [hq])
        unfold formatBody
        refine pick _ _ _ sn (pick _ _ _ sn (pick _ _ _ (pick _ _ _ sn (go _ _ _)) (pick _ _ _ (pick _ _ _ sn (go _ _ _)) (pick _ _ _ (pick _ _ _ sn (go _ _ _))
          (pick _ _ _ (pick _ _ _ sn (go _ _ _)) (pick _ _ _ (pick _ _ _ sn (go _ _ _)) (pick _ _ _ (pick _ _ _ sn (go _ _ _)) (pick _ _ _ (pick _ _ _ sn ?_)
          (pick _ _ _ (pick _ _ _ sn (go _ _ _)) (pick _ _ _ (pick _ _ _ sn (go _ _ _)) (pick _ _ _ (pick _ _ _ sn ?_) (pick _ _ _ (pick _ _ _ sn (go _ _ _)) sn))))))))))))
        · exact g24 6 true fun buf => out ++ buf ++ bs " "
        · exact g24 7 any fun buf => out ++ (if any then [] else bs "default ") ++ bs "on " ++ buf ++ bs " "

/-- Every part is a number if there is a description. -/
theorem format_numbers {compat : Bool} {parts : List (List Nat)} {out : List Nat} (h : formatLoop compat 0 false [] parts = some (some out)) :
    parts = [] ∧ out = [] ∨ ∃ ns e any s d39 d49, Nums parts (0 :: ns) ∧ Part e any s d39 d49 out ∧ ∀ a, apply (0 :: ns) a = s.attr := by
  cases parts with
  | nil =>
    rw [formatLoop] at h
    cases h
    exact .inl ⟨rfl, rfl⟩
  | cons p parts =>
    right
    cases hi : int p with
    | none =>
      rw [formatLoop, hi] at h
      cases h
    | some z =>
      by_cases hz : z < 0
      · rw [formatLoop_neg hi hz] at h
        cases h
      obtain ⟨x, hx⟩ : ∃ x : Nat, z = (x : Int) := ⟨z.toNat, by omega⟩
      subst hx
      rw [formatLoop_cons hi] at h
      unfold formatBody at h
      rw [if_neg (by decide)] at h
      by_cases hx : x = 0
      · subst hx
        rw [if_neg (by simp), if_pos rfl, if_neg (by decide)] at h
        obtain ⟨ns, e', any', s', d39, d49, g1, g2, g3⟩ := format_inv compat 1 false [] parts out h ⟨false, none, false, false, .default, .default⟩ false false
          ⟨by omega, by decide +kernel, rfl, fun _ => rfl, fun _ => rfl, fun _ => rfl, fun _ => rfl, fun _ => ⟨rfl, rfl⟩, fun _ => ⟨rfl, rfl⟩, fun _ => rfl,
            fun _ => rfl, trivial, trivial⟩
        refine ⟨ns, e', any', s', d39, d49, .cons hi g1, g2, fun a => ?_⟩
        rw [apply_one (by decide) (by decide)]
        exact g3
      · rw [if_pos ⟨rfl, hx⟩] at h
        cases h

theorem int_decimal {w : List Nat} {n : Nat} (h : Decimal w n) (hn : n < 2147483648) : int w = some (n : Int) := by
  obtain ⟨-, h2, h3⟩ := h
  have mono : ∀ (w : List Nat) (x : Nat), x ≤ w.foldl (fun x c => 10 * x + (c - 48)) x := by
    intro w
    induction w with
    | nil => intro x; exact Nat.le_refl _
    | cons c w ih =>
      intro x
      rw [List.foldl_cons]
      have := ih (10 * x + (c - 48))
      omega
  have key : ∀ (w : List Nat) (x : Nat), (∀ c ∈ w, 48 ≤ c ∧ c ≤ 57) → w.foldl (fun x c => 10 * x + (c - 48)) x = n → intLoop x w = some (n : Int) := by
    intro w
    induction w with
    | nil =>
      intro x _ h
      rw [List.foldl_nil] at h
      rw [intLoop, h]
    | cons c w ih =>
      intro x hc h
      have h1 := hc c (by simp)
      rw [List.foldl_cons] at h
      have := mono w (10 * x + (c - 48))
      rw [intLoop, if_neg (by omega), if_neg (by omega), Nat.mul_comm x 10]
      exact ih _ (fun c hc' => hc c (List.mem_cons_of_mem _ hc')) h
  exact key w 0 h2 h3

/-- Only digits are numbers. -/
theorem decimal_int {w : List Nat} {n : Nat} (hw : w ≠ []) (h : int w = some (n : Int)) : Decimal w n := by
  have key : ∀ (w : List Nat) (x : Nat), intLoop x w = some (n : Int) → (∀ c ∈ w, 48 ≤ c ∧ c ≤ 57) ∧ w.foldl (fun x c => 10 * x + (c - 48)) x = n := by
    intro w
    induction w with
    | nil =>
      intro x h
      rw [intLoop] at h
      have h := Option.some.inj h
      exact ⟨by simp, by rw [List.foldl_nil]; omega⟩
    | cons c w ih =>
      intro x h
      rw [intLoop] at h
      split at h
      · have h := Option.some.inj h
        omega
      · split at h
        · cases h
        · rw [Nat.mul_comm x 10] at h
          obtain ⟨a, b⟩ := ih _ h
          refine ⟨?_, b⟩
          intro d hd
          rcases List.mem_cons.1 hd with rfl | hd
          · omega
          · exact a d hd
  obtain ⟨a, b⟩ := key w 0 h
  exact ⟨hw, a, b⟩

theorem params_words {code : List Nat} {ns : List Nat} (h : Params code ns) :
    ∃ ws, Words 59 code ws ∧ Ascii code ∧ code ≠ [] ∧ 32 ∉ code ∧ ((∀ n ∈ ns, n < 2147483648) → Nums ws ns) := by
  induction h with
  | @last w n h =>
    obtain ⟨a, b, -⟩ := id h
    refine ⟨[w], Tok.words_one a fun hc => ?_, fun c hc => ?_, a, fun hc => ?_, fun hn => .cons (int_decimal h (hn n (by simp))) .nil⟩
    · have := b 59 hc; omega
    · have := b c hc; omega
    · have := b 32 hc; omega
  | @more w n t ns h ht ih =>
    obtain ⟨ws, i1, i2, i3, i4, i5⟩ := ih
    obtain ⟨a, b, -⟩ := id h
    refine ⟨w :: ws, Tok.words_cons a (fun hc => ?_) i1, fun c hc => ?_, by simp, fun hc => ?_, fun hn => .cons (int_decimal h (hn n (by simp))) (i5 fun m hm => hn m (List.mem_cons_of_mem _ hm))⟩
    · have := b 59 hc; omega
    · rcases List.mem_append.1 hc with hc | hc
      · have := b c hc; omega
      · rcases List.mem_cons.1 hc with rfl | hc
        · omega
        · exact i2 c hc
    · rcases List.mem_append.1 hc with hc | hc
      · have := b 32 hc; omega
      · rcases List.mem_cons.1 hc with hc | hc
        · cases hc
        · exact i4 hc

theorem params_wordOk {code : List Nat} {ns : List Nat} (h : Params code ns) : WordOk code := by
  induction h with
  | @last w n h => exact ⟨h.1, fun c hc => by have := h.2.1 c hc; omega⟩
  | @more w n t ns h ht ih =>
    refine ⟨by simp, fun c hc => ?_⟩
    rcases List.mem_append.1 hc with hc | hc
    · have := h.2.1 c hc; omega
    · rcases List.mem_cons.1 hc with rfl | hc
      · omega
      · exact ih.2 c hc

theorem nums_unique {ps : List (List Nat)} {a b : List Nat} (h : Nums ps a) (h' : Nums ps b) : a = b := by
  induction h generalizing b with
  | nil => cases h'; rfl
  | @cons p ps n ns h t ih =>
    cases h' with
    | @cons _ _ m ms h' t' =>
      rw [h] at h'
      rw [ih t']
      have := Option.some.inj h'
      congr 1
      omega

theorem nums_defined {ps : List (List Nat)} {a : List Nat} (h : Nums ps a) : ∀ p ∈ ps, int p ≠ none := by
  induction h with
  | nil => simp
  | @cons p ps n ns h t ih =>
    intro q hq
    rcases List.mem_cons.1 hq with rfl | hq
    · rw [h]; simp
    · exact ih q hq

end Clink.Color
