import Verif.Proof.Scripts

/-! C66: `clink installscripts` and `clink uninstallscripts` keep a list of different script paths. -/

namespace Clink.Scripts
open Clink.Utf (IsText specUtf8 specUtf16)
open Spec

theorem join_text (ps : List (List Nat)) (h : ∀ p ∈ ps, ∀ c ∈ p, IsText c) : ∀ c ∈ [59].intercalate ps, IsText c := by
  induction ps with
  | nil => intro c hc; simp [List.intercalate, List.intersperse] at hc
  | cons p ps ih =>
    intro c hc
    rw [join_cons] at hc
    rcases List.mem_append.1 hc with hc | hc
    · exact h p (by simp) c hc
    · split at hc
      · cases hc
      · rcases List.mem_append.1 hc with hc | hc
        · rw [List.mem_singleton] at hc
          subst hc
          decide
        · exact ih (fun q hq => h q (by simp [hq])) c hc

theorem good_ne {args : List (List Nat)} (h : given args ≠ []) : args ≠ [] := by
  rintro rfl
  exact h rfl

theorem paths_text {reg : Option (List Nat)} {text : List Nat} (h : Stored reg text) :
    ∀ p ∈ paths text, (p ≠ [] ∧ 59 ∉ p) ∧ ∀ c ∈ p, IsText c := fun p hp => by
  obtain ⟨a, b, c⟩ := paths_mem _ text p (Nat.le_refl _) hp
  exact ⟨⟨a, b⟩, fun x hx => h.1 x (c x hx)⟩

theorem store_eq (reg : Option (List Nat)) (inst : Bool) (v : List Nat) (ps : List (List Nat)) (h : ∀ p ∈ ps, (p ≠ [] ∧ 59 ∉ p) ∧ ∀ c ∈ p, IsText c) :
    ∃ r text, store true reg inst v (utf8 ([59].intercalate ps)) = (true, .done inst v, r) ∧ Stored r text ∧ paths text = ps := by
  obtain ⟨r, h1, h2⟩ := set_stored reg ([59].intercalate ps) (join_text ps fun p hp => (h p hp).2)
  refine ⟨r, _, ?_, h2, paths_join ps fun p hp => (h p hp).1⟩
  unfold store
  rw [h1]
  rfl

/-- C66 (install): a path that is not in the list yet is added at its end; one that is there, is reported and nothing changes. -/
theorem C66_install (lower : Nat → Nat) (reg : Option (List Nat)) (text : List Nat) (h : Stored reg text) (args : List (List Nat)) (hg : Good args) :
    ((∃ p ∈ paths text, Same lower p (given args)) → ∀ w, changeValue lower w reg true (args.map utf8) = (false, .already (utf8 (given args)), reg)) ∧
    ((¬ ∃ p ∈ paths text, Same lower p (given args)) → ∃ r text', changeValue lower true reg true (args.map utf8) = (true, .done true (utf8 (given args)), r) ∧
      Stored r text' ∧ paths text' = paths text ++ [given args]) := by
  obtain ⟨g1, g2, g3⟩ := hg
  refine ⟨fun hex w => ?_, fun hex => ?_⟩
  · have hC : true = true ∧ ∃ p ∈ paths text, Same lower p (given args) := ⟨rfl, hex⟩
    rw [change_eq lower w h true args (good_ne g2) g1 g3, if_pos hC]
  · rw [change_eq lower true h true args (good_ne g2) g1 g3, if_neg (fun h => hex h.2), if_neg (by simp), if_pos rfl]
    refine store_eq reg true _ _ fun p hp => ?_
    rcases List.mem_append.1 hp with hp | hp
    · exact paths_text h p hp
    · rw [List.mem_singleton] at hp
      subst hp
      exact ⟨⟨g2, g3⟩, given_text args g1⟩

/-- C66 (uninstall): the path is removed from the list and the others stay as they are, in the same order; a path that is not there is
reported and nothing changes. -/
theorem C66_uninstall (lower : Nat → Nat) (reg : Option (List Nat)) (text : List Nat) (h : Stored reg text) (args : List (List Nat)) (hg : Good args) :
    ((¬ ∃ p ∈ paths text, Same lower p (given args)) → ∀ w, changeValue lower w reg false (args.map utf8) = (false, .notInstalled (utf8 (given args)), reg)) ∧
    ((∃ p ∈ paths text, Same lower p (given args)) → ∃ r text', changeValue lower true reg false (args.map utf8) = (true, .done false (utf8 (given args)), r) ∧
      Stored r text' ∧ paths text' = (paths text).filter fun p => ¬ Same lower p (given args)) := by
  obtain ⟨g1, g2, g3⟩ := hg
  refine ⟨fun hex w => ?_, fun hex => ?_⟩
  · have hC : false = false ∧ ¬ ∃ p ∈ paths text, Same lower p (given args) := ⟨rfl, hex⟩
    rw [change_eq lower w h false args (good_ne g2) g1 g3, if_neg (by simp), if_pos hC]
  · rw [change_eq lower true h false args (good_ne g2) g1 g3, if_neg (by simp), if_neg (fun h => h.2 hex), if_neg (by simp)]
    exact store_eq reg false _ _ fun p hp => paths_text h p (List.mem_filter.1 hp).1

/-- C66 (nothing else): without a path, with a semicolon in it, or when the registry cannot be written, nothing changes and the
command says so. -/
theorem C66_refused (lower : Nat → Nat) (w inst : Bool) (reg : Option (List Nat)) (text : List Nat) (h : Stored reg text) (args : List (List Nat))
    (hg : ∀ a ∈ args, ∀ c ∈ a, IsText c) :
    (args = [] → changeValue lower w reg inst (args.map utf8) = (false, .noPath, reg)) ∧
    (59 ∈ given args → changeValue lower w reg inst (args.map utf8) = (false, .semicolon, reg)) ∧
    ∃ m, changeValue lower false reg inst (args.map utf8) = (false, m, reg) := by
  have hs : args ≠ [] → 59 ∈ given args → ∀ w, changeValue lower w reg inst (args.map utf8) = (false, .semicolon, reg) := fun h1 h2 w => by
    unfold changeValue
    rw [if_neg (by simpa using h1), joinArgs_eq, if_pos ((sep_mem _ (given_text args hg)).2 h2)]
  have h0 : ∀ w, changeValue lower w reg inst (List.map utf8 []) = (false, .noPath, reg) := fun _ => rfl
  have hne : 59 ∈ given args → args ≠ [] := fun h => by
    rintro rfl
    cases h
  refine ⟨fun e => by subst e; exact h0 w, fun e => hs (hne e) e w, ?_⟩
  by_cases e : args = []
  · subst e; exact ⟨_, h0 false⟩
  · by_cases e' : 59 ∈ given args
    · exact ⟨_, hs e e' false⟩
    · rw [change_eq lower false h inst args e hg e']
      split
      · exact ⟨_, rfl⟩
      · split
        · exact ⟨_, rfl⟩
        · exact ⟨_, rfl⟩

/-- C66 (list): the paths are listed in their order. -/
theorem C66_list (reg : Option (List Nat)) (text : List Nat) (h : Stored reg text) : list reg = (paths text).map utf8 := list_stored h

/-- C66 (all): after uninstalling all there is no path. -/
theorem C66_all (reg : Option (List Nat)) : ∃ out r text', uninstallAll true reg 0 = (0, out, r) ∧ Stored r text' ∧ paths text' = [] ∧
    uninstallAll false reg 0 = (1, [], reg) :=
  ⟨_, _, [], rfl, ⟨by simp, .inr rfl⟩, rfl, rfl⟩

/-- The registry after a command. -/
def command (lower : Nat → Nat) (reg : Option (List Nat)) : Cmd → Option (List Nat)
  | .change inst args => (changeValue lower true reg inst (args.map utf8)).2.2
  | .all => (uninstallAll true reg 0).2.2

/-- C66 (any commands): after any commands with paths, the list has the paths that were installed and not uninstalled since, in the order
of their installation; and if they were different before, they are different now. -/
theorem C66_run (lower : Nat → Nat) (reg : Option (List Nat)) (text : List Nat) (h : Stored reg text) (cmds : List Cmd)
    (hg : ∀ inst args, Cmd.change inst args ∈ cmds → Good args) :
    ∃ text', Stored (cmds.foldl (command lower) reg) text' ∧ paths text' = cmds.foldl (after lower) (paths text) ∧
      ((paths text).Pairwise (fun p q => ¬ Same lower p q) → (paths text').Pairwise (fun p q => ¬ Same lower p q)) := by
  induction cmds generalizing reg text with
  | nil => exact ⟨text, h, rfl, id⟩
  | cons cmd cmds ih =>
    have key : ∃ t', Stored (command lower reg cmd) t' ∧ paths t' = after lower (paths text) cmd ∧
        ((paths text).Pairwise (fun p q => ¬ Same lower p q) → (paths t').Pairwise (fun p q => ¬ Same lower p q)) := by
      cases cmd with
      | all =>
        obtain ⟨out, r, t', h1, h2, h3, -⟩ := C66_all reg
        refine ⟨t', ?_, h3, fun _ => by rw [h3]; exact .nil⟩
        show Stored (uninstallAll true reg 0).2.2 t'
        rw [h1]
        exact h2
      | change inst args =>
        have hgood := hg inst args (by simp)
        cases inst with
        | true =>
          obtain ⟨i1, i2⟩ := C66_install lower reg text h args hgood
          show ∃ t', Stored (changeValue lower true reg true (args.map utf8)).2.2 t' ∧ paths t' = install lower (paths text) (given args) ∧ _
          unfold install
          by_cases hex : ∃ p ∈ paths text, Same lower p (given args)
          · rw [i1 hex true, if_pos hex]
            exact ⟨text, h, rfl, id⟩
          · obtain ⟨r, t', e, e1, e2⟩ := i2 hex
            rw [e, if_neg hex]
            refine ⟨t', e1, e2, fun hd => ?_⟩
            rw [e2, List.pairwise_append]
            refine ⟨hd, by simp, fun p hp q hq => ?_⟩
            rw [List.mem_singleton] at hq
            subst hq
            exact fun e => hex ⟨p, hp, e⟩
        | false =>
          obtain ⟨i1, i2⟩ := C66_uninstall lower reg text h args hgood
          show ∃ t', Stored (changeValue lower true reg false (args.map utf8)).2.2 t' ∧ paths t' = uninstall lower (paths text) (given args) ∧ _
          by_cases hex : ∃ p ∈ paths text, Same lower p (given args)
          · obtain ⟨r, t', e, e1, e2⟩ := i2 hex
            rw [e]
            refine ⟨t', e1, e2, fun hd => ?_⟩
            rw [e2]
            exact hd.filter _
          · rw [i1 hex true, uninstall_none lower _ _ hex]
            exact ⟨text, h, rfl, id⟩
    obtain ⟨t', h1, h2, h3⟩ := key
    obtain ⟨t'', k1, k2, k3⟩ := ih _ t' h1 fun inst args hm => hg inst args (by simp [hm])
    refine ⟨t'', k1, ?_, fun hd => k3 (h3 hd)⟩
    rw [k2, h2]
    rfl

/-- C66 (undo): uninstalling a path that was just installed gives the list there was. -/
theorem C66_undo (lower : Nat → Nat) (reg : Option (List Nat)) (text : List Nat) (h : Stored reg text) (args : List (List Nat)) (hg : Good args)
    (hn : ¬ ∃ p ∈ paths text, Same lower p (given args)) :
    ∃ text', Stored (command lower (command lower reg (.change true args)) (.change false args)) text' ∧ paths text' = paths text := by
  obtain ⟨t', h1, h2, -⟩ := C66_run lower reg text h [.change true args, .change false args] (by
    intro i a hm
    simp only [List.mem_cons, Cmd.change.injEq, List.not_mem_nil, or_false] at hm
    rcases hm with ⟨-, rfl⟩ | ⟨-, rfl⟩ <;> exact hg)
  refine ⟨t', h1, h2.trans ?_⟩
  show uninstall lower (install lower (paths text) (given args)) (given args) = paths text
  unfold install
  rw [if_neg hn]
  have hs : Same lower (given args) (given args) := rfl
  have := uninstall_none lower (paths text) (given args) hn
  unfold uninstall at this ⊢
  rw [List.filter_append, this]
  simp [hs]

def str (s : String) : List Nat := s.toList.map Char.toNat

/-- Lower case of ASCII letters. -/
def lowerAscii (c : Nat) : Nat := if 65 ≤ c ∧ c ≤ 90 then c + 32 else c

def regText (s : String) : Option (List Nat) := some ((str s).flatMap specUtf16)

/-- Disagreement: `uninstallscripts --all` is to print each path that it uninstalls, but reads the list after it has been emptied, and
so never prints any. -/
theorem C66_all_violated : (∀ reg args, (uninstallAll true reg args).2.1 = []) ∧
    list (regText "c:/a;c:/b") = [str "c:/a", str "c:/b"] ∧ (uninstallAll true (regText "c:/a;c:/b") 0).1 = 0 := by
  refine ⟨fun reg args => ?_, by decide +kernel, by decide +kernel⟩
  unfold uninstallAll
  split
  · rfl
  · exact list_stored (reg := some []) (text := []) ⟨by simp, .inr rfl⟩

/-- Disagreement: an empty path is reported as installed, each time anew, but it is not there. -/
theorem C66_empty_violated :
    let r := changeValue lowerAscii true (regText "c:/a") true [[]]
    r.1 = true ∧ r.2.1 = .done true [] ∧ r.2.2 = regText "c:/a;" ∧ list r.2.2 = [str "c:/a"] ∧
    changeValue lowerAscii true r.2.2 true [[]] = r ∧
    changeValue lowerAscii true r.2.2 false [[]] = (false, .notInstalled [], regText "c:/a;") := by
  decide +kernel

/-! Cases -/

/-- The argument of two words is one path; case and the kind of separator do not count; characters that are not ASCII. -/
def two : List (List Nat) := [str "C:\\my", str "scripts"]

theorem lower_ok : StrCompare.LowerOk lowerAscii :=
  ⟨fun c => by unfold lowerAscii; split <;> omega, fun c => by unfold lowerAscii; split <;> omega⟩

/-- `Same` evaluated. -/
theorem same_iff (p q : List Nat) : Same lowerAscii p q ↔
    StrCompare.collapse (p.map (StrCompare.canon lowerAscii ⟨1, false, false⟩)) = StrCompare.collapse (q.map (StrCompare.canon lowerAscii ⟨1, false, false⟩)) := by
  unfold Same
  rw [StrCompare.C29_key_collapse lowerAscii lower_ok _ rfl, StrCompare.C29_key_collapse lowerAscii lower_ok _ rfl]

theorem two_good : Good two := ⟨by decide +kernel, by decide +kernel, by decide +kernel⟩

/-- A list with superfluous semicolons and the path in another spelling. -/
theorem list_stored' : Stored (regText ";c:/a;;c://MY Scripts") (str ";c:/a;;c://MY Scripts") := ⟨by decide +kernel, .inr rfl⟩

theorem two_there : ∃ p ∈ paths (str ";c:/a;;c://MY Scripts"), Same lowerAscii p (given two) :=
  ⟨str "c://MY Scripts", by decide +kernel, (same_iff _ _).2 (by decide +kernel)⟩

example : given two = str "C:\\my scripts" ∧ paths (str ";c:/a;;c://MY Scripts") = [str "c:/a", str "c://MY Scripts"] := by decide +kernel

example : changeValue lowerAscii true (regText ";c:/a;;c://MY Scripts") true (two.map utf8) =
    (false, .already (utf8 (given two)), regText ";c:/a;;c://MY Scripts") :=
  (C66_install lowerAscii _ _ list_stored' two two_good).1 two_there true

example : ∃ r text', changeValue lowerAscii true (regText ";c:/a;;c://MY Scripts") false (two.map utf8) = (true, .done false (utf8 (given two)), r) ∧
    Stored r text' ∧ paths text' = [str "c:/a"] := by
  obtain ⟨r, t, h1, h2, h3⟩ := (C66_uninstall lowerAscii _ _ list_stored' two two_good).2 two_there
  refine ⟨r, t, h1, h2, h3.trans ?_⟩
  have e : paths (str ";c:/a;;c://MY Scripts") = [str "c:/a", str "c://MY Scripts"] := by decide +kernel
  have s1 : ¬ Same lowerAscii (str "c:/a") (given two) := fun h => absurd ((same_iff _ _).1 h) (by decide +kernel)
  have s2 : Same lowerAscii (str "c://MY Scripts") (given two) := (same_iff _ _).2 (by decide +kernel)
  rw [e]
  simp [s1, s2]

/-- Absent value, added at the end, and text that is not ASCII. -/
example : changeValue lowerAscii true (regText ";d:/a;;e:/b") true (two.map utf8) = (true, .done true (str "C:\\my scripts"), regText "d:/a;e:/b;C:\\my scripts") ∧
    changeValue lowerAscii true none true [utf8 [8364], []] = (true, .done true (utf8 [8364, 32]), some [8364, 32]) ∧
    [Cmd.change true two, .change true [str "d:/x"]].foldl (command lowerAscii) none = regText "C:\\my scripts;d:/x" := by
  decide +kernel

example : changeValue lowerAscii true none true [] = (false, .noPath, none) ∧ changeValue lowerAscii true none false [str "a;b"] = (false, .semicolon, none) ∧
    changeValue lowerAscii false none true [str "a"] = (false, .registry, none) := by
  decide +kernel

end Clink.Scripts
