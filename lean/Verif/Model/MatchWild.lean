import Verif.Model.StrCompare
/-
Model of `path::match_wild`, clink/core/include/core/match_wild.h.

The iterators over pattern and file are modelled by the lists of code points still to come
(`Clink.Text` relates a byte string to its code points; `peek()` = 0 is the end of the list).
Pointers saved and restored by the code are these lists; equality of pointers into the same
string is equality of the remaining lengths.
`start_of_path_component` is only ever assigned `true` (or restored from a saved value), so
it is always true and left out.  `CharLowerW` maps exactly 0 to 0, so the end of a string
matches only the end of the other.
-/
namespace Clink.MatchWild
open Clink.StrCompare

/-- `star_matches_everything`, core/include/core/match_wild.h:16. -/
inductive Star where
  | no | yes | atEnd
deriving Repr, DecidableEq

/-- Arguments of `match_wild_impl`, core/include/core/match_wild.h:51-52: comparison mode
(case, accents), `dot_prefix`, `match_everything` and the two strings. -/
structure Args where
  lower : Nat → Nat
  mode : Nat
  fuzzy : Bool
  dot : Bool
  me : Star
  pattern : List Nat
  file : List Nat

/-- `match_char_impl`, core/include/core/match_wild.h:19-48, for two real characters: the same
steps as one round of `str_compare_impl` without exact slashes. -/
def matchChar (a : Args) (pc fc : Nat) : Bool :=
  same ⟨a.mode, a.fuzzy, false⟩ (fold a.lower ⟨a.mode, a.fuzzy, false⟩ pc) (fold a.lower ⟨a.mode, a.fuzzy, false⟩ fc)

/-- `c == '*' || c == '?'`. -/
def wild (c : Nat) : Bool := c == 42 || c == 63

/-- The scan for the final component, core/include/core/match_wild.h:158-163 and 168-174. -/
def afterLastSep (best : List Nat) : List Nat → List Nat
  | [] => best
  | c :: l => afterLastSep (if isSep c then l else best) l

/-- `has_final_wildcard`, core/include/core/match_wild.h:157-167. -/
def finalWild (acc : Bool) : List Nat → Bool
  | [] => acc
  | c :: l => finalWild (if isSep c then false else if wild c then true else acc) l

/-- One saved alternative: `pattern_stack`, `file_stack`, core/include/core/match_wild.h:58-60. -/
abbrev Entry := List Nat × List Nat

/-- Outcome of one round of the main loop. -/
inductive Res where
  | done (b : Bool)
  | fail                       -- `goto back_track`
  | go (p f : List Nat)        -- next round
  | goClear (p f : List Nat)   -- `depth = 0`, next round
  | goPush (p f : List Nat) (e : Entry)
deriving Repr, DecidableEq

/-- Leading dots of the final file component are passed over,
core/include/core/match_wild.h:151-187.  `c` is the pattern character in front of `p`. -/
def skipDots (a : Args) (c : Nat) (p f : List Nat) : List Nat :=
  match f with
  | [] => []
  | d :: f' =>
    if a.dot && d == 46 && finalWild false a.pattern &&
        decide ((d :: f').length = (afterLastSep a.file a.file).length) &&
        decide ((c :: p).length = (afterLastSep a.pattern a.pattern).length) && c != 46
    then (d :: f').dropWhile (· == 46) else d :: f'

/-- One round of the main loop, core/include/core/match_wild.h:70-206; `depth` is the number of
saved alternatives. -/
def step (a : Args) (depth : Nat) (p f : List Nat) : Res :=
  match p with
  | [] => if f = [] then .done true else .fail
  | c :: p =>
    if c = 63 then
      match f with
      | [] => .go p []
      | d :: f => if isSep d then .fail else .go p f
    else if c = 42 then
      match p.dropWhile wild with
      | [] =>
        if a.me ≠ .no then .done true
        else
          -- scan to the end; the next round (pattern and file at their end) returns true
          if f.dropWhile (fun d => !isSep d) = [] then .done (decide (depth ≠ 10))
          else .fail
      | c' :: p' =>
        match f.dropWhile (fun d => (a.me = .yes || !isSep d) && !matchChar a d c') with
        | [] => .fail
        | d :: f' =>
          if matchChar a d c' then
            if a.me ≠ .yes && isSep d then .goClear p' f'
            else if depth = 10 then .done false
            else .goPush p' f' (c :: p, f')
          else .fail
    else
      match skipDots a c p f with
      | [] => .fail
      | d :: f =>
        if matchChar a d c then
          if isSep c then .go (p.dropWhile isSep) (f.dropWhile isSep) else .go p f
        else .fail

/-- Bound on the number of rounds still possible (termination only). -/
def weight (e : Entry) : Nat := 3 ^ (e.1.length + e.2.length)
def weights (s : List Entry) : Nat := s.foldr (fun e n => weight e + n) 0

theorem dropWhile_le (q : Nat → Bool) (l : List Nat) : (l.dropWhile q).length ≤ l.length :=
  (List.dropWhile_suffix q).length_le

theorem skipDots_le (a : Args) (c : Nat) (p f : List Nat) : (skipDots a c p f).length ≤ f.length := by
  unfold skipDots
  split
  · simp
  · split
    · exact dropWhile_le _ _
    · exact Nat.le_refl _

/-- What a round can do to the lengths. -/
def Res.Small (p f : List Nat) : Res → Prop
  | .done _ => True
  | .fail => True
  | .go p' f' => p'.length + f'.length < p.length + f.length
  | .goClear p' f' => p'.length + f'.length < p.length + f.length
  | .goPush p' f' e => p'.length + f'.length + 3 ≤ p.length + f.length ∧ e.1.length + e.2.length < p.length + f.length

theorem step_small (a : Args) (n : Nat) (p f : List Nat) : (step a n p f).Small p f := by
  unfold step
  split
  · split <;> trivial
  · rename_i c p
    split
    · split
      · simp [Res.Small]
      · split
        · trivial
        · simp [Res.Small]; omega
    · split
      · split
        · split
          · trivial
          · split <;> trivial
        · rename_i c' p' hp
          have h1 := dropWhile_le wild p
          rw [hp] at h1
          split
          · trivial
          · rename_i d f' hf
            have h2 := dropWhile_le (fun d => (a.me = .yes || !isSep d) && !matchChar a d c') f
            rw [hf] at h2
            simp only [List.length_cons] at h1 h2
            split
            · split
              · simp [Res.Small]; omega
              · split
                · trivial
                · simp [Res.Small]; omega
            · trivial
      · split
        · trivial
        · rename_i d f' hf
          have h2 := skipDots_le a c p f
          rw [hf] at h2
          simp only [List.length_cons] at h2
          have h3 := dropWhile_le isSep p
          have h4 := dropWhile_le isSep f'
          split
          · split <;> simp [Res.Small] <;> omega
          · trivial

/-- The main loop with its backtracking stack, core/include/core/match_wild.h:66-207; the label
`back_track` is lines 76-85.  The stack is newest first. -/
def run (a : Args) (p f : List Nat) (stk : List Entry) : Bool :=
  match h : step a stk.length p f with
  | .done b => b
  | .go p' f' => run a p' f' stk
  | .goClear p' f' => run a p' f' []
  | .goPush p' f' e => run a p' f' (e :: stk)
  | .fail =>
    match stk with
    | [] => false
    | e :: s => run a e.1 e.2 s
termination_by weight (p, f) + weights stk
decreasing_by
  all_goals have hs := step_small a stk.length p f
  · rw [h] at hs
    simp only [Res.Small] at hs
    have := Nat.pow_lt_pow_right (a := 3) (by omega) hs
    simp only [weight]; omega
  · rw [h] at hs
    simp only [Res.Small] at hs
    have := Nat.pow_lt_pow_right (a := 3) (by omega) hs
    simp only [weight, weights, List.foldr]; omega
  · rw [h] at hs
    simp only [Res.Small] at hs
    obtain ⟨x, y⟩ := hs
    simp only [weight, weights, List.foldr]
    have h1 := Nat.pow_le_pow_right (n := 3) (by omega) x
    have h2 := Nat.pow_le_pow_right (n := 3) (by omega) y
    rw [Nat.pow_add] at h1
    have h3 : 3 ^ Nat.succ (e.1.length + e.2.length) = 3 ^ (e.1.length + e.2.length) * 3 := Nat.pow_succ _ _
    rw [h3] at h2
    have h4 : 0 < 3 ^ (p'.length + f'.length) := Nat.pow_pos (by omega)
    generalize 3 ^ (p'.length + f'.length) = A at *
    generalize 3 ^ (e.1.length + e.2.length) = B at *
    generalize 3 ^ (p.length + f.length) = C at *
    omega
  · simp only [weight, weights, List.foldr]
    have : 0 < 3 ^ (p.length + f.length) := Nat.pow_pos (by omega)
    omega

/-- `match_wild_impl`, core/include/core/match_wild.h:51-208. -/
def matchWild (a : Args) : Bool := run a a.pattern a.file []

end Clink.MatchWild
