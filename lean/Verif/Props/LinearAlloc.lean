import Verif.Proof.LinearAlloc
/- C06: the linear allocator hands out disjoint, in-bounds blocks and never disturbs them. -/
namespace Clink.LinearAlloc

/-- C06: whatever the client does within its rights is defined behaviour, and at any time all
live blocks are inside owned memory and pairwise disjoint. -/
theorem C06_blocks_disjoint (max : Nat) (ops : List Op) (w : World)
    (hr : Runs { a := init max, blocks := [] } ops w) :
    (∀ b ∈ w.blocks, 0 < b.size ∧ Inside w.a b) ∧ w.blocks.Pairwise Disjoint ∧
    (∀ op, OpOk w op → (step w op).isSome) := by
  have i := runs_inv (init_inv max) hr
  refine ⟨fun b hb => (i.inside b hb).2, i.disj, fun op ho => ?_⟩
  obtain ⟨w', e, -⟩ := step_inv i op ho
  rw [e]; rfl

/-- C06: the contents of a live block are changed by nobody but its owner, until the arena is
recycled. -/
theorem C06_contents_stable (max : Nat) (ops ops' : List Op) (w w' : World)
    (hr : Runs { a := init max, blocks := [] } ops w) (hr' : Runs w ops' w')
    (b : Block) (hb : b ∈ w.blocks) (hl : ∀ op ∈ ops', Leaves b op) :
    b ∈ w'.blocks ∧ peek w'.a b.ptr b.size = peek w.a b.ptr b.size ∧ (peek w.a b.ptr b.size).isSome := by
  have i := runs_inv (init_inv max) hr
  have := runs_frame i hr' b hb hl
  refine ⟨this.1, this.2, ?_⟩
  obtain ⟨-, -, m, hm, hle⟩ := i.inside b hb
  have := peek_mem i.nodup hm b.ptr.off b.size hle
  exact (congrArg Option.isSome this).trans rfl

/-- C06: a stored string reads back, with its terminator, after any later requests. -/
theorem C06_store_reads_back (max : Nat) (ops ops' : List Op) (w w1 w' : World) (e : Env) (s : List Nat)
    (hr : Runs { a := init max, blocks := [] } ops w) (hs : step w (.store e s) = some w1)
    (hr' : Runs w1 ops' w') :
    w1.blocks = w.blocks ∨
    ∃ p, w1.blocks = ⟨p, s.length + 1⟩ :: w.blocks ∧
      ((∀ op ∈ ops', Leaves ⟨p, s.length + 1⟩ op) → peek w'.a p (s.length + 1) = some (s ++ [0])) := by
  have i := runs_inv (init_inv max) hr
  obtain ⟨w2, e2, i2, -⟩ := step_inv i (.store e s) trivial
  rw [e2] at hs; cases hs
  rcases store_contents i e s e2 with h | ⟨p, hb, hp⟩
  · exact .inl h
  · refine .inr ⟨p, hb, fun hl => ?_⟩
    have := runs_frame i2 hr' ⟨p, s.length + 1⟩ (by rw [hb]; simp) hl
    exact this.2.trans hp

/-- C06: a request succeeds exactly when it is for at least one byte, the page size can hold
the chain pointer (only needed when a page must be made) and memory is available. -/
theorem C06_alloc_succeeds (max : Nat) (ops : List Op) (w : World) (n : Nat) (e : Env)
    (hr : Runs { a := init max, blocks := [] } ops w) (h8 : 8 ≤ w.a.max) (hn : 0 < n)
    (h1 : e.ok1 = true) (h2 : e.ok2 = true) :
    ∃ p a', alloc e.junk e.link e.ok1 e.ok2 w.a n = (a', some p) := by
  have i := runs_inv (init_inv max) hr
  have np : ∃ a1, newPage e.junk e.link e.ok1 w.a = some a1 ∧ a1.pages ≠ [] := by
    unfold newPage
    rw [if_neg (by omega), h1]
    exact ⟨_, rfl, by simp⟩
  obtain ⟨a1, hnp, hne⟩ := np
  unfold alloc
  rw [if_neg (by omega)]
  by_cases hov : oversized w.a n = true
  · rw [if_pos hov]
    by_cases hp : w.a.pages = []
    · simp only [hp, if_true, hnp, h2]
      cases hpp : a1.pages with
      | nil => exact absurd hpp hne
      | cons q r => exact ⟨_, _, rfl⟩
    · simp only [hp, if_false, h2]
      cases hpp : w.a.pages with
      | nil => exact absurd hpp hp
      | cons q r => exact ⟨_, _, rfl⟩
  · rw [if_neg hov]
    by_cases hf : fits w.a n = true
    · simp only [hf, if_true]
      cases hpp : w.a.pages with
      | nil =>
        have := i.empty hpp
        simp only [fits, decide_eq_true_eq] at hf
        omega
      | cons q r => exact ⟨_, _, rfl⟩
    · rw [if_neg hf, hnp]
      cases hpp : a1.pages with
      | nil => exact absurd hpp hne
      | cons q r => exact ⟨_, _, by simp only [hpp]; rfl⟩

/-- C06: a refused request leaves every live block as it was. -/
theorem C06_refused_changes_nothing (max : Nat) (ops : List Op) (w : World) (n : Nat) (e : Env)
    (hr : Runs { a := init max, blocks := [] } ops w) (a' : Alloc)
    (hf : alloc e.junk e.link e.ok1 e.ok2 w.a n = (a', none)) :
    ∀ b ∈ w.blocks, peek a' b.ptr b.size = peek w.a b.ptr b.size := by
  have i := runs_inv (init_inv max) hr
  obtain ⟨j, k⟩ := (alloc_inv i n).1 a' hf
  intro b hb
  obtain ⟨x, -, z⟩ := i.inside b hb
  exact keeps_peek k i.nodup j.nodup b z x

/-- `store(nullptr)` is undefined behaviour as soon as the one-byte allocation succeeds: the
code guards the length computation against a null pointer but not the copy. -/
theorem C06_store_null_is_undefined :
    ∃ (junk link : Nat → Nat), store junk link true true (init 64) none = none :=
  ⟨fun _ => 0, fun _ => 0, by decide +kernel⟩

/-- A concrete run: a small block, an oversized one, a stored string, a write, a new page. -/
def exEnv : Env := ⟨fun i => i % 251, fun _ => 7, true, true⟩
def exOps : List Op :=
  [.alloc exEnv 10, .alloc exEnv 100, .store exEnv [104, 105], .write ⟨⟨0, 8⟩, 10⟩ 2 [1, 2, 3],
   .alloc exEnv 20, .alloc exEnv 0]
def exWorld : World → List Op → Option World
  | w, [] => some w
  | w, op :: ops => (step w op).bind (fun w' => exWorld w' ops)

example : (exWorld { a := init 32, blocks := [] } exOps).map (fun w => w.blocks) =
    some [⟨⟨2, 8⟩, 20⟩, ⟨⟨0, 18⟩, 3⟩, ⟨⟨1, 8⟩, 100⟩, ⟨⟨0, 8⟩, 10⟩] := by decide +kernel
example : ((exWorld { a := init 32, blocks := [] } exOps).bind (fun w => peek w.a ⟨0, 18⟩ 3)) =
    some [104, 105, 0] := by decide +kernel
/-- The hypotheses of the theorems are met by that run. -/
example : ∃ w, Runs { a := init 32, blocks := [] } exOps w := by
  refine ⟨_, .cons trivial rfl (.cons trivial rfl (.cons trivial rfl (.cons ⟨?_, ?_⟩ rfl
    (.cons trivial rfl (.cons trivial rfl (.nil _))))))⟩
  · decide +kernel
  · decide

end Clink.LinearAlloc
