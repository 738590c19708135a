import Verif.Model.KeyNames
import Verif.Spec.KeyNames

/-! Lemmas for C70. -/

namespace Clink.KeyNames

open Spec (Nameable)

/-! Reading one key -/

theorem loop_plain (conv : Bool) (k : Nat) (ctl meta_ : Bool) (c : Nat) (r : Text) (h : c ≠ 92) :
    loop conv (k + 1) ctl meta_ (c :: r) = put conv ctl meta_ c ++ loop conv k false false r := by
  rw [loop]
  intro d r' h1 _
  exact h h1

theorem loop_escape (conv : Bool) (k : Nat) (ctl meta_ : Bool) (d : Nat) (r : Text) (h1 : d ≠ 67) (h2 : d ≠ 77) :
    loop conv (k + 1) ctl meta_ (92 :: d :: r) = put conv ctl meta_ (escape d r).1 ++ loop conv k false false (escape d r).2 := by
  rw [loop, if_neg (fun h => h1 h.1), if_neg (fun h => h2 h.1)]

theorem loop_ctl (conv : Bool) (k : Nat) (ctl meta_ : Bool) (r : Text) :
    loop conv (k + 1) ctl meta_ (92 :: 67 :: 45 :: r) = loop conv k true meta_ r := by
  rw [loop]
  rfl

theorem loop_meta (conv : Bool) (k : Nat) (ctl meta_ : Bool) (r : Text) :
    loop conv (k + 1) ctl meta_ (92 :: 77 :: 45 :: r) = loop conv k ctl true r := by
  rw [loop]
  rfl

theorem ctrl_back : ∀ c : Nat, c < 32 → c ≠ 28 → (ctrlMap.getD c 0 ≠ 92 ∧ ctrlMap.getD c 0 ≠ 63 ∧ toUpper (ctrlMap.getD c 0) % 32 = c) := by
  decide +kernel

/-- A key is read as it was written; `k` is enough for what follows. -/
theorem loop_one (conv meta_ : Bool) (c : Nat) (hc : c ≠ 28) (h128 : c < 128 ∨ (conv = false ∧ meta_ = false)) (r : Text) (k : Nat)
    (hk : r.length < k) (ind : ∀ k', r.length < k' → loop conv k' false false r = loop conv (r.length + 1) false false r) :
    loop conv (k + (one c).length) false meta_ (one c ++ r) =
      (if meta_ then [27, c] else [c]) ++ loop conv (r.length + 1) false false r := by
  have hput : put conv false meta_ c = if meta_ then [27, c] else [c] := by
    unfold put
    simp only [Bool.false_eq_true, if_false]
    rcases h128 with h | ⟨h1, h2⟩
    · have hC : ¬ (c > 127 ∧ conv = true) := by omega
      rw [if_neg hC, Nat.mod_eq_of_lt h]
    · subst h1 h2
      simp
  unfold one
  by_cases h27 : c = 27
  · subst h27
    rw [if_pos rfl]
    show loop conv (k + 1 + 1) false meta_ (92 :: 101 :: r) = _
    rw [loop_escape _ _ _ _ _ _ (by decide) (by decide)]
    show put conv false meta_ 27 ++ loop conv (k + 1) false false r = _
    rw [hput, ind _ (by omega)]
  rw [if_neg h27]
  by_cases h32 : c < 32
  · rw [if_pos h32]
    obtain ⟨h1, h2, h3⟩ := ctrl_back c h32 hc
    show loop conv (k + 3 + 1) false meta_ (92 :: 67 :: 45 :: ctrlMap.getD c 0 :: r) = _
    rw [loop_ctl]
    show loop conv (k + 2 + 1) true meta_ _ = _
    rw [loop_plain _ _ _ _ _ _ h1, ind _ (by omega)]
    congr 1
    have : put conv true meta_ (ctrlMap.getD c 0) = put conv false meta_ c := by
      unfold put
      simp only [if_true, if_neg h2, h3, Bool.false_eq_true, if_false]
    rw [this, hput]
  rw [if_neg h32]
  by_cases h127 : c = 127
  · subst h127
    rw [if_pos rfl]
    show loop conv (k + 3 + 1) false meta_ (92 :: 67 :: 45 :: 63 :: r) = _
    rw [loop_ctl]
    show loop conv (k + 2 + 1) true meta_ _ = _
    rw [loop_plain _ _ _ _ _ _ (by decide), ind _ (by omega)]
    have : put conv true meta_ 63 = put conv false meta_ 127 := by cases conv <;> cases meta_ <;> rfl
    rw [this, hput]
  rw [if_neg h127]
  by_cases hq : c = 92 ∨ c = 34
  · rw [if_pos hq]
    show loop conv (k + 1 + 1) false meta_ (92 :: c :: r) = _
    rw [loop_escape _ _ _ _ _ _ (by omega) (by omega)]
    have : escape c r = (c, r) := by rcases hq with rfl | rfl <;> rfl
    rw [this]
    show put conv false meta_ c ++ loop conv (k + 1) false false r = _
    rw [hput, ind _ (by omega)]
  · rw [if_neg hq]
    show loop conv (k + 1) false meta_ (c :: r) = _
    rw [loop_plain _ _ _ _ _ _ (by omega), hput, ind _ hk]

theorem loop_keys (conv : Bool) (ks : List Nat) (h28 : 28 ∉ ks) (h : ∀ c ∈ ks, c < 128 ∨ conv = false) :
    ∀ k, (ks.flatMap one).length < k → loop conv k false false (ks.flatMap one) = ks := by
  induction ks with
  | nil =>
    intro k hk
    cases k with
    | zero => omega
    | succ k => rfl
  | cons c ks ih =>
    have ih := ih (fun h => h28 (by simp [h])) (fun c hc => h c (by simp [hc]))
    intro k hk
    rw [List.flatMap_cons] at hk ⊢
    rw [List.length_append] at hk
    have e : k = (k - (one c).length) + (one c).length := by omega
    rw [e, loop_one conv false c (fun e => h28 (by simp [e])) ((h c (by simp)).imp id (fun h => ⟨h, rfl⟩)) _ _ (by omega)
      (fun k' hk' => by rw [ih _ hk', ih _ (by omega)])]
    rw [ih _ (by omega)]
    rfl

theorem translate_body (conv : Bool) (ks : List Nat) (h : Nameable ks) (hc : ∀ c ∈ ks, c < 128 ∨ conv = false) :
    translate conv (body ks) = ks := by
  unfold translate
  by_cases h2 : ∃ b, ks = [27, b] ∧ b ≠ 27
  · obtain ⟨b, rfl, hb⟩ := h2
    have : body [27, b] = 92 :: 77 :: 45 :: (one b ++ []) := by
      show (if 27 = 27 ∧ b ≠ 27 then txt "\\M-" ++ one b else one 27 ++ one b) = _
      rw [if_pos ⟨rfl, hb⟩, List.append_nil]; rfl
    rw [this]
    show loop conv ((one b ++ []).length + 1 + 1 + 1 + 1) false false _ = _
    rw [loop_meta]
    have e : (one b ++ []).length + 1 + 1 + 1 = 3 + (one b).length := by simp; omega
    rw [e, loop_one conv true b (fun e => h.1 (by simp [e])) (.inl (h.2 b rfl)) [] 3 (by simp) (fun k' hk' => by
      cases k' with
      | zero => simp at hk'
      | succ k' => rfl)]
    rfl
  · have hb : body ks = ks.flatMap one := by
      unfold body
      split
      · rename_i a b
        have hC : ¬ (a = 27 ∧ b ≠ 27) := fun h => h2 ⟨b, by rw [h.1], h.2⟩
        rw [if_neg hC]; simp
      · rfl
    rw [hb]
    exact loop_keys conv ks h.1 hc _ (by omega)

/-! Finding the closing quote -/

theorem quoted_plain (c : Nat) (r : Text) (h1 : c ≠ 34) (h2 : c ≠ 92) : quoted (c :: r) = (quoted r).map fun (s, t) => (c :: s, t) := by
  rw [quoted.eq_def]
  split
  · rename_i h; cases h
  · rename_i h; simp at h; omega
  · rename_i h; simp at h; omega
  · rename_i h; simp at h; omega
  · rename_i h; simp at h; obtain ⟨rfl, rfl⟩ := h; rfl

theorem quoted_one (c : Nat) (hc : c ≠ 28) (r : Text) : quoted (one c ++ r) = (quoted r).map fun (s, t) => (one c ++ s, t) := by
  unfold one
  by_cases h27 : c = 27
  · rw [if_pos h27]; rfl
  rw [if_neg h27]
  by_cases h32 : c < 32
  · rw [if_pos h32]
    have h : ctrlMap.getD c 0 ≠ 34 ∧ ctrlMap.getD c 0 ≠ 92 := by
      have : ∀ c : Nat, c < 32 → c ≠ 28 → ctrlMap.getD c 0 ≠ 34 ∧ ctrlMap.getD c 0 ≠ 92 := by decide +kernel
      exact this c h32 hc
    show (quoted (45 :: ctrlMap.getD c 0 :: r)).map _ = _
    rw [quoted_plain _ _ (by decide) (by decide), quoted_plain _ _ h.1 h.2]
    cases quoted r <;> rfl
  rw [if_neg h32]
  by_cases h127 : c = 127
  · rw [if_pos h127]
    show (quoted (45 :: 63 :: r)).map _ = _
    rw [quoted_plain _ _ (by decide) (by decide), quoted_plain _ _ (by decide) (by decide)]
    cases quoted r <;> rfl
  rw [if_neg h127]
  by_cases hq : c = 92 ∨ c = 34
  · rw [if_pos hq]; rfl
  · rw [if_neg hq]
    show quoted (c :: r) = _
    rw [quoted_plain _ _ (by omega) (by omega)]; rfl

theorem quoted_keys (ks : List Nat) (h : 28 ∉ ks) (r : Text) :
    quoted (ks.flatMap one ++ r) = (quoted r).map fun (s, t) => (ks.flatMap one ++ s, t) := by
  induction ks with
  | nil => simp
  | cons c ks ih =>
    rw [List.flatMap_cons, List.append_assoc, quoted_one c (fun e => h (by simp [e])), ih (fun h' => h (by simp [h']))]
    cases quoted r <;> simp

theorem quoted_body (ks : List Nat) (h : 28 ∉ ks) (r : Text) :
    quoted (body ks ++ r) = (quoted r).map fun (s, t) => (body ks ++ s, t) := by
  unfold body
  split
  · rename_i a b
    by_cases hC : a = 27 ∧ b ≠ 27
    · rw [if_pos hC, List.append_assoc]
      show (quoted (45 :: (one b ++ r))).map _ = _
      rw [quoted_plain _ _ (by decide) (by decide), quoted_one b (fun e => h (by simp [e]))]
      cases quoted r <;> rfl
    · rw [if_neg hC]
      have := quoted_keys [a, b] h r
      simpa using this
  · exact quoted_keys _ h r

theorem quoted_none (r : Text) (h : 34 ∉ r) : quoted r = none := by
  induction r using quoted.induct with
  | case1 => rfl
  | case2 r => simp at h
  | case3 => rfl
  | case4 d r ih =>
    rw [quoted, ih (by intro h'; exact h (by simp [h']))]; rfl
  | case5 c r h1 h2 h3 ih =>
    have h34 : c ≠ 34 := fun e => h (by simp [e])
    by_cases h92 : c = 92
    · subst h92
      cases r with
      | nil => rfl
      | cons d r => exact absurd rfl (h3 d r rfl)
    · rw [quoted_plain c r h34 h92, ih (fun h' => h (by simp [h']))]; rfl

end Clink.KeyNames
