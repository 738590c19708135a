import Verif.Proof.BindMore

/-!
C22: key bindings.  Bindings are registered with chords (texts such as `\C-x`, `\e[1;*A`) in groups; what is typed is looked up
among them.
-/

namespace Clink.Bind

open Spec

variable {esc : Option (List Nat)} {b : Binder} {gs : List (Option Nat × Nat)} {cs : List (Nat × List Tok)} {bs : List Bound}

/-- After any calls, typing any keys that do not run into a parameter reports the bindings whose chords are what was typed or
what it begins with, longer chords first, each in order of registration; each with its module, id and number of keys; and nothing
else. -/
theorem C22_candidates (h : Run esc b gs cs bs) (hc : Compatible cs) (hz : NonZero cs) {g : Nat} (hg : ∃ name, (name, g) ∈ gs) {ks : List Nat} (h16 : ks.length ≤ 16) (h256 : ∀ k ∈ ks, k < 256)
    (ha : AvoidsParams cs g ks) {r : Resolver} {stop : Bool} (ht : Typed b (.start g) ks r stop) :
    ∃ xs, Passes b r xs ∧ (∀ ys, Passes b r ys → ys = xs) ∧ xs.map (seen b) = (candidates bs g ks).map expected := by
  obtain ⟨path, hf⟩ := run_full h hc
  have hg' : g ∈ gs.map (·.2) := by
    obtain ⟨name, hn⟩ := hg
    exact List.mem_map.2 ⟨_, hn, rfl⟩
  obtain ⟨p, rfl, hl, -⟩ := typed_spec hf.inv hg' ht h16 ha
  obtain ⟨L, h1, h2, h3, h4⟩ := walk_longest (r := { Resolver.start g with node := p, keys := ks }) hf.inv hz ha h256 rfl rfl h16 hl
  have h5 := passes_links (r := { Resolver.start g with node := p, keys := ks }) L.length (Nat.le_refl _) h1 h2 h3 rfl rfl
  exact ⟨_, h5, fun ys h6 => passes_unique h6 h5, by rw [List.map_map]; exact h4⟩

/-- `step` asks for more if what was typed is the beginning of a longer chord, and only then. -/
theorem C22_step (h : Run esc b gs cs bs) (hc : Compatible cs) {g : Nat} (hg : ∃ name, (name, g) ∈ gs) {ks : List Nat} {k : Nat} (h16 : ks.length < 16)
    (ha : AvoidsParams cs g (ks ++ [k])) {r : Resolver} (ht : Typed b (.start g) ks r false) :
    ∃ r' stop, r.step b k = some (r', stop) ∧ ((∃ x ∈ bs, x.group = g ∧ plain (ks ++ [k]) <+: x.chord ∧ x.chord ≠ plain (ks ++ [k])) → stop = false) ∧
      (stop = false → ∃ c, (g, c) ∈ cs ∧ plain (ks ++ [k]) <+: c ∧ c ≠ plain (ks ++ [k])) := by
  obtain ⟨path, hf⟩ := run_full h hc
  have hg' : g ∈ gs.map (·.2) := by
    obtain ⟨name, hn⟩ := hg
    exact List.mem_map.2 ⟨_, hn, rfl⟩
  have ha' : AvoidsParams cs g ks := fun p x ks' t l he => ha p x (ks' ++ [k]) t l (by rw [he]; simp)
  obtain ⟨p, rfl, -, h1⟩ := typed_spec hf.inv hg' ht (by omega) ha'
  obtain ⟨hp, -⟩ := h1 rfl
  have hst : ({ Resolver.start g with node := p, keys := ks } : Resolver).step b k = ({ Resolver.start g with node := p, keys := ks ++ [k] } : Resolver).stepImpl b k := by
    rw [Resolver.step, if_neg (by simp; omega)]
  rw [hst]
  have hlong : ∀ x ∈ bs, x.group = g → plain (ks ++ [k]) <+: x.chord → x.chord ≠ plain (ks ++ [k]) → ∃ i t, path i = some (g, plain (ks ++ [k]) ++ [t]) := by
    rintro x hx rfl ⟨l, hl⟩ hne
    obtain ⟨e, he, -⟩ := bound_path hf.inv hx
    rw [← hl] at he hne
    cases l with
    | nil => exact absurd (List.append_nil _) hne
    | cons t l =>
      have h2 : path e = some (x.group, (plain (ks ++ [k]) ++ [t]) ++ l) := by rw [he]; simp
      obtain ⟨q, hq⟩ := path_prefix hf.inv _ h2
      exact ⟨q, t, hq.1⟩
  rcases stepImpl_typed (r := { Resolver.start g with node := p, keys := ks ++ [k] }) hf.inv rfl rfl hp (fun t l => ha ks k [] t l rfl) with ⟨i, h1, h2⟩ | ⟨h1, h2⟩
  · refine ⟨_, _, h1, ?_, ?_⟩
    · rintro ⟨x, hx, e1, e2, e3⟩
      obtain ⟨j, t, hj⟩ := hlong x hx e1 e2 e3
      rw [decide_eq_false_iff_not]
      intro h0
      exact (child_zero hf.inv h2).1 h0 j t hj
    · intro h0
      rw [decide_eq_false_iff_not, child_zero hf.inv h2] at h0
      have : ∃ j t, path j = some (g, plain (ks ++ [k]) ++ [t]) := by
        apply Classical.byContradiction
        intro hno
        exact h0 fun j t hj => hno ⟨j, t, hj⟩
      obtain ⟨j, t, hj⟩ := this
      obtain ⟨l, hcall⟩ := call_of hf.inv hj
      refine ⟨_, hcall, ⟨t :: l, rfl⟩, ?_⟩
      intro he
      have := congrArg List.length he
      simp at this
  · refine ⟨_, _, h1, ?_, fun h0 => by simp at h0⟩
    rintro ⟨x, hx, e1, e2, e3⟩
    exfalso
    obtain ⟨j, t, hj⟩ := hlong x hx e1 e2 e3
    obtain ⟨q, hq⟩ := path_prefix hf.inv _ hj
    exact h2 q hq.1

/-- If each binding that is reported is claimed, then what was typed is split into chords: each time the longest chord that is
bound, with its first binding. -/
theorem C22_claims (h : Run esc b gs cs bs) (hc : Compatible cs) (hz : NonZero cs) {g : Nat} (hg : ∃ name, (name, g) ∈ gs) {ks : List Nat} (hne : ks ≠ []) (h16 : ks.length ≤ 16) (h256 : ∀ k ∈ ks, k < 256)
    (ha : ∀ n, AvoidsParams cs g (ks.drop n)) {r : Resolver} {stop : Bool} (ht : Typed b (.start g) ks r stop) :
    ∃ xs ys, Claims b r xs ∧ (∀ zs, Claims b r zs → zs = xs) ∧ Splits bs g ks ys ∧ xs.map (seen b) = ys.map expected := by
  obtain ⟨path, hf⟩ := run_full h hc
  have hg' : g ∈ gs.map (·.2) := by
    obtain ⟨name, hn⟩ := hg
    exact List.mem_map.2 ⟨_, hn, rfl⟩
  have ha0 : AvoidsParams cs g ks := by simpa using ha 0
  obtain ⟨p, rfl, hl, -⟩ := typed_spec hf.inv hg' ht h16 ha0
  have hnext : ({ Resolver.start g with node := p, keys := ks } : Resolver).next b = ({ Resolver.start g with node := p, keys := ks } : Resolver).search b fuel p := rfl
  rcases search_first (r := { Resolver.start g with node := p, keys := ks }) hf.inv hz ha0 h256 rfl rfl h16 hl with ⟨e1, e2⟩ | ⟨i, x, xs, e1, e2, e3⟩
  · have h1 : Claims b _ [] := .nil (hnext.trans e2)
    exact ⟨[], [], h1, fun zs h2 => claims_unique h2 h1, .none (.inr e1), rfl⟩
  · have hlen : (report b i).len = max 1 x.chord.length := congrArg (fun y => y.2.2.1) e2
    obtain ⟨us, vs, h1, h2, h3⟩ := claims_pending (r := ({ Resolver.start g with node := (b.nodes i).next, keys := ks } : Resolver).claim (report b i)) (bs := bs) hf.inv hz hg' ks.length
      (ks := ks.drop (max 1 x.chord.length)) (by rw [List.length_drop]; omega) (fun m => by rw [List.drop_drop]; exact ha _) (fun k hm => h256 k (List.mem_of_mem_drop hm)) rfl rfl rfl rfl rfl
      (by show ks.drop (0 + (report b i).len) = _; rw [hlen, Nat.zero_add]) h16 (by show 1 ≤ 0 + (report b i).len; omega)
    have h4 : Claims b _ (_ :: us) := .cons (hnext.trans e3) h1
    exact ⟨_, x :: vs, h4, fun zs h5 => claims_unique h5 h4, .cons hne e1 h2, by rw [List.map_cons, List.map_cons, e2, h3]⟩

/-- Keys that match a chord that is bound can be typed, and then the first binding of the chord is reported first, with the values
of the parameters and the number of keys. -/
theorem C22_params (h : Run esc b gs cs bs) (hc : Compatible cs) {g : Nat} (hg : ∃ name, (name, g) ∈ gs) {c : List Tok} {x : Bound} (hx : bs.find? (fun y => decide (y.group = g ∧ y.chord = c)) = some x)
    {ks : List Nat} {ps : List (List Nat)} (hm : Matches c ks ps) (hne : c ≠ []) (hrep : Reportable c) (h16 : ks.length ≤ 16) (hps : ps.length ≤ 4) :
    ∃ r stop r' y, Typed b (.start g) ks r stop ∧ r.next b = some (r', some y) ∧
      seen b y = (some x.module, x.id, ks.length, ⟨ps.map (value · % 65536), (ks.length : Int) - c.length⟩) := by
  obtain ⟨path, hf⟩ := run_full h hc
  have hg' : g ∈ gs.map (·.2) := by
    obtain ⟨name, hn⟩ := hg
    exact List.mem_map.2 ⟨_, hn, rfl⟩
  exact params_spec hf.inv hc hg' hx hm hne hrep h16 hps

/-- A binding for another group or for other keys changes nothing. -/
theorem C22_other {b' : Binder} {gs' : List (Option Nat × Nat)} {cs' : List (Nat × List Tok)} {y : Bound} (h : Run esc b gs cs bs) (hc : Compatible cs) (hz : NonZero cs)
    (h' : Run esc b' gs' cs' (bs ++ [y])) (hc' : Compatible cs') (hz' : NonZero cs') {g : Nat} (hg : ∃ name, (name, g) ∈ gs) (hg' : ∃ name, (name, g) ∈ gs') {ks : List Nat} (h16 : ks.length ≤ 16)
    (h256 : ∀ k ∈ ks, k < 256) (ha : AvoidsParams cs g ks) (ha' : AvoidsParams cs' g ks) (hy : y.group ≠ g ∨ ¬ y.chord <+: plain ks) {r r' : Resolver} {stop stop' : Bool}
    (ht : Typed b (.start g) ks r stop) (ht' : Typed b' (.start g) ks r' stop') {xs xs' : List Binding} (hp : Passes b r xs) (hp' : Passes b' r' xs') : xs'.map (seen b') = xs.map (seen b) := by
  obtain ⟨us, -, h1, h2⟩ := C22_candidates h hc hz hg h16 h256 ha ht
  obtain ⟨vs, -, h3, h4⟩ := C22_candidates h' hc' hz' hg' h16 h256 ha' ht'
  rw [h1 xs hp, h3 xs' hp', h2, h4]
  congr 1
  unfold candidates
  congr 1
  funext n
  unfold matching
  rw [List.filter_append, List.filter_cons, if_neg, List.filter_nil, List.append_nil]
  rw [decide_eq_true_eq]
  rintro ⟨e1, e2, -⟩
  rcases hy with hy | hy
  · exact hy e1
  · apply hy
    rw [e2]
    exact ⟨plain (ks.drop n), by rw [← plain_append, List.take_append_drop]⟩

/-- `bind` reads outside of its buffer exactly if the chord is empty and the group has a binding for that already (unless there
are too many modules). -/
theorem C22_defined (h : Run esc b gs cs bs) {g : Nat} (hg : ∃ name, (name, g) ∈ gs) {text keys : List Nat} (ht : translate esc text = some keys) {module id : Nat} {hasParams : Bool}
    (hc : Compatible (cs ++ [(g, toks hasParams keys)])) :
    b.bind esc g text module id hasParams = none ↔ keys = [] ∧ (∃ x ∈ bs, x.group = g ∧ x.chord = []) ∧ (module ∈ b.modules ∨ b.modules.length < 32) := by
  obtain ⟨path, hf⟩ := run_full h (compatible_sub (fun x hx => List.mem_append_left _ hx) hc)
  have hg' : g ∈ gs.map (·.2) := by
    obtain ⟨name, hn⟩ := hg
    exact List.mem_map.2 ⟨_, hn, rfl⟩
  have hst : ∀ x ∈ cs ++ [(g, toks hasParams keys)], ∀ t ∈ x.2, t.star = true → t.key = 42 := by
    intro x hx
    rcases List.mem_append.1 hx with h1 | h1
    · exact run_stars h x h1
    · simp only [List.mem_singleton] at h1
      subst h1
      exact fun t h1 h2 => toks_star h1 h2
  have hi := inv_calls hf.inv (cs' := cs ++ [(g, toks hasParams keys)]) (fun x hx => List.mem_append_left _ hx) hst
  have hroot := root_prim hi.rep hg'
  have hlt := (hi.rep.alloc g _ hroot.1).2
  have hn := hi.rep.next
  have hb : (b.nodes g).bound = true ↔ ∃ x ∈ bs, x.group = g ∧ x.chord = [] := by
    constructor
    · intro hb
      have h1 : g ∈ (List.range b.nextNode).filter fun i => decide (path i = some (g, [])) && (b.nodes i).bound := by
        rw [List.mem_filter]
        exact ⟨List.mem_range.2 hlt, by simp [hroot.1, hb]⟩
      have h2 : (b.modules[(b.nodes g).module]?, (b.nodes g).id) ∈ (bs.filter fun x => decide (x.group = g ∧ x.chord = [])).map fun x => (some x.module, x.id) := by
        rw [← hi.binds g []]
        exact List.mem_map.2 ⟨g, h1, rfl⟩
      obtain ⟨x, h3, -⟩ := List.mem_map.1 h2
      have h4 := List.mem_filter.1 h3
      exact ⟨x, h4.1, by simpa using h4.2⟩
    · rintro ⟨x, hx, rfl, h2⟩
      obtain ⟨e, he, heb⟩ := bound_path hi hx
      rw [h2] at he
      rw [← ((hi.rep.roots e _).1 he).1]
      exact heb
  have hm : b.addModule module ≠ none ↔ module ∈ b.modules ∨ b.modules.length < 32 := by
    unfold Binder.addModule
    split
    · rename_i hx; simp [hx]
    · rename_i hx
      split
      · rename_i hy; simp [hy]
      · rename_i hy; simp [hx]; omega
  have hbind : b.bind esc g text module id hasParams = b.bindKeys g keys module id hasParams := by
    rw [Binder.bind, if_neg (by unfold size; omega), ht]
  rw [hbind, ← hb, ← hm]
  rcases bindKeys_spec (id := id) (module := module) hi hc hg' (List.mem_append_right _ (List.mem_singleton.2 rfl)) with ⟨h1, h2, h3, h4⟩ | ⟨b2, ok2, path2, h1, -, -, h3, -⟩
  · exact ⟨fun _ => ⟨h1, h2, h3⟩, fun _ => h4⟩
  · rw [h1]
    exact ⟨fun h => by simp at h, fun h => absurd h h3⟩

/-- `bind` succeeds if there is room for the chord: two nodes for each group, and one more than there are keys for each chord. -/
theorem C22_room (h : Run esc b gs cs bs) {g : Nat} (hg : ∃ name, (name, g) ∈ gs) {text keys : List Nat} (ht : translate esc text = some keys) {module id : Nat} {hasParams : Bool}
    (hc : Compatible (cs ++ [(g, toks hasParams keys)])) (hroom : 2 * gs.length + (cs.map fun x => x.2.length + 1).sum + keys.length + 1 ≤ 512) (hmod : b.modules.length < 32)
    (hempty : keys ≠ [] ∨ ∀ x ∈ bs, x.group = g → x.chord ≠ []) : ∃ b', b.bind esc g text module id hasParams = some (b', true) := by
  have hd := C22_defined (module := module) (id := id) h hg ht hc
  obtain ⟨path, hf⟩ := run_full h (compatible_sub (fun x hx => List.mem_append_left _ hx) hc)
  have hg' : g ∈ gs.map (·.2) := by
    obtain ⟨name, hn⟩ := hg
    exact List.mem_map.2 ⟨_, hn, rfl⟩
  have hst : ∀ x ∈ cs ++ [(g, toks hasParams keys)], ∀ t ∈ x.2, t.star = true → t.key = 42 := by
    intro x hx
    rcases List.mem_append.1 hx with h1 | h1
    · exact run_stars h x h1
    · simp only [List.mem_singleton] at h1
      subst h1
      exact fun t h1 h2 => toks_star h1 h2
  have hi := inv_calls hf.inv (cs' := cs ++ [(g, toks hasParams keys)]) (fun x hx => List.mem_append_left _ hx) hst
  have hlt := (hi.rep.alloc g _ (root_prim hi.rep hg').1).2
  have hn := hi.rep.next
  have hcount := hf.count
  have hbind : b.bind esc g text module id hasParams = b.bindKeys g keys module id hasParams := by
    rw [Binder.bind, if_neg (by unfold size; omega), ht]
  rw [hbind] at hd ⊢
  rcases bindKeys_spec (id := id) (module := module) hi hc hg' (List.mem_append_right _ (List.mem_singleton.2 rfl)) with ⟨-, -, -, h4⟩ | ⟨b2, ok2, path2, h1, -, -, -, h3, -⟩
  · obtain ⟨e1, ⟨x, e2, e3, e4⟩, -⟩ := hd.1 h4
    rcases hempty with he | he
    · exact absurd e1 he
    · exact absurd e4 (he x e2 e3)
  · rw [h3 (by omega) hmod] at h1
    exact ⟨b2, h1⟩

/-- Chords can be written in several ways, and stand for the keys that the parts stand for. -/
theorem C22_text (l : List Item) (hl : Written l) (h63 : (l.flatMap Item.keys).length ≤ 63) (hlone : lone (l.flatMap Item.keys) = false ∨ esc = none) :
    translate esc (l.flatMap Item.text) = some (l.flatMap Item.keys) := by
  rw [translate, loop_written l hl h63]
  simp only
  rcases hlone with h | h
  · rw [h, if_neg (by simp)]
  · subst h
    split <;> rfl

/-- A group is found by its name; the last one if there are several with the same hash.  Different groups have different numbers. -/
theorem C22_groups (h : Run esc b gs cs bs) (hc : Compatible cs) : (∀ name, b.getGroup name = some (((gs.lookup name).map Int.ofNat).getD (-1))) ∧ (gs.map (·.2)).Nodup := by
  obtain ⟨path, hf⟩ := run_full h hc
  exact ⟨getGroup_spec hf, glinks_nodup gs hf.glinks⟩

/-- `is_bound` reports a chord that is bound, if it is not the beginning of a longer one. -/
theorem C22_is_bound (h : Run esc b gs cs bs) (hc : Compatible cs) {g : Nat} (hg : ∃ name, (name, g) ∈ gs) {ks : List Nat} (hne : ks ≠ []) (ha : AvoidsParams cs g ks)
    (hb : ∃ x ∈ bs, x.group = g ∧ x.chord = plain ks) (hlong : ∀ c, (g, c) ∈ cs → plain ks <+: c → c = plain ks) (after : Nat) : b.isBound g ks after = some 1 := by
  obtain ⟨path, hf⟩ := run_full h hc
  have hg' : g ∈ gs.map (·.2) := by
    obtain ⟨name, hn⟩ := hg
    exact List.mem_map.2 ⟨_, hn, rfl⟩
  obtain ⟨x, hx, rfl, h2⟩ := hb
  obtain ⟨e, he, -⟩ := bound_path hf.inv hx
  rw [h2] at he
  obtain ⟨k, ks', rfl⟩ := List.exists_cons_of_ne_nil hne
  obtain ⟨q, h3, h4⟩ := isBoundLoop_spec (ks := []) hf.inv (decide (k < 32 ∨ k = 127)) after (k :: ks') hne (root_prim hf.inv.rep hg') (by simpa using ha) (by simpa using he)
  rw [List.nil_append] at h3
  rw [Binder.isBound, h4, if_pos]
  rw [child_zero hf.inv h3]
  intro i t hi
  obtain ⟨l, hl⟩ := call_of hf.inv hi
  have := congrArg List.length (hlong _ hl ⟨t :: l, rfl⟩)
  simp at this

/-! Examples -/

/-- `a`, `ab` (twice), `^x`, the empty chord, `\e[1;*A` with a parameter, `$!*;*~` with two parameters. -/
def demoCalls : List (List Nat × Nat × Nat × Bool) :=
  [([97], 10, 1, false), ([97, 98], 10, 2, false), ([97, 98], 20, 3, false), ([94, 120], 20, 4, false), ([], 30, 5, false), ([92, 101, 91, 49, 59, 42, 65], 30, 6, true),
   ([36, 33, 42, 59, 42, 126], 30, 7, true)]

def demo : Binder := ((bindAll none 1 .start demoCalls).map (·.1)).getD .start

def demoCs : List (Nat × List Tok) := demoCalls.map fun x => (1, toks x.2.2.2 ((translate none x.1).getD []))

def demoBs : List Bound := demoCalls.map fun x => ⟨1, toks x.2.2.2 ((translate none x.1).getD []), x.2.1, x.2.2.1⟩

theorem demo_run : Run none demo [(none, 1)] demoCs demoBs := by
  have h1 : (bindAll none 1 .start demoCalls).map (·.2) = some (demoCs, demoBs) := by decide +kernel
  cases h2 : bindAll none 1 .start demoCalls with
  | none => rw [h2] at h1; simp at h1
  | some x =>
    obtain ⟨b', cs', bs'⟩ := x
    rw [h2] at h1
    simp only [Option.map_some, Option.some.injEq, Prod.mk.injEq] at h1
    have h3 := bindAll_run demoCalls .start ⟨none, by simp⟩ h2
    rw [demo, h2]
    simpa [h1.1, h1.2] using h3

theorem demo_compatible : Compatible demoCs := compatible_of_check (by decide +kernel)

theorem demo_nonzero : NonZero demoCs := by unfold NonZero; decide +kernel

theorem demo_typed {ks : List Nat} {stop : Bool} (h : (typeAll demo (.start 1) ks).map (·.2) = some stop) : ∃ r, Typed demo (.start 1) ks r stop := by
  cases h1 : typeAll demo (.start 1) ks with
  | none => rw [h1] at h; simp at h
  | some x =>
    obtain ⟨r, s⟩ := x
    rw [h1] at h
    simp only [Option.map_some, Option.some.injEq] at h
    subst h
    exact ⟨r, typeAll_typed ks .nil h1⟩

/-- `ab` is typed: its two bindings, then `a`, then the empty chord. -/
example : ∃ r xs, Typed demo (.start 1) [97, 98] r true ∧ Passes demo r xs ∧
    xs.map (seen demo) = [(some 10, 2, 2, {}), (some 20, 3, 2, {}), (some 10, 1, 1, {}), (some 30, 5, 1, {})] := by
  obtain ⟨r, hr⟩ := demo_typed (ks := [97, 98]) (stop := true) (by decide +kernel)
  obtain ⟨xs, h1, -, h2⟩ := C22_candidates demo_run demo_compatible demo_nonzero ⟨none, by simp⟩ (by decide) (by decide) (avoids_of_check (by decide +kernel)) hr
  refine ⟨r, xs, hr, h1, ?_⟩
  rw [h2]
  decide +kernel

/-- `a` needs more keys. -/
example : ∃ r, (Resolver.start 1).step demo 97 = some (r, false) := by
  obtain ⟨r, stop, h1, h2, -⟩ := C22_step (g := 1) (ks := []) (k := 97) demo_run demo_compatible ⟨none, by simp⟩ (by decide) (avoids_of_check (by decide +kernel)) .nil
  rw [h2 (by decide +kernel)] at h1
  exact ⟨r, h1⟩

/-- `aa` is typed and each binding is claimed: `a` twice. -/
example : ∃ r xs, Typed demo (.start 1) [97, 97] r true ∧ Claims demo r xs ∧ xs.map (seen demo) = [(some 10, 1, 1, {}), (some 10, 1, 1, {})] := by
  obtain ⟨r, hr⟩ := demo_typed (ks := [97, 97]) (stop := true) (by decide +kernel)
  obtain ⟨xs, ys, h1, -, h2, h3⟩ := C22_claims demo_run demo_compatible demo_nonzero ⟨none, by simp⟩ (by decide) (by decide) (by decide) (fun n => by
    match n with
    | 0 => exact avoids_of_check (by decide +kernel)
    | 1 => exact avoids_of_check (by decide +kernel)
    | n + 2 => rw [List.drop_eq_nil_of_le (by simp)]; exact avoids_of_check (by decide +kernel)) hr
  refine ⟨r, xs, hr, h1, ?_⟩
  rw [h3]
  cases h2 with
  | none h => exact absurd h (by decide +kernel)
  | @cons _ x _ l _ h h2 =>
    have e1 : candidates demoBs 1 [97, 97] = ⟨1, plain [97], 10, 1⟩ :: [⟨1, [], 30, 5⟩] := by decide +kernel
    rw [e1] at h
    cases h
    cases h2 with
    | none h => exact absurd h (by decide +kernel)
    | @cons _ x _ l _ h h2 =>
      have e2 : candidates demoBs 1 (List.drop (max 1 (plain [97]).length) [97, 97]) = ⟨1, plain [97], 10, 1⟩ :: [⟨1, [], 30, 5⟩] := by decide +kernel
      rw [e2] at h
      cases h
      cases h2 with
      | none => rfl
      | cons h => exact absurd rfl h

/-- `$!456;23~`: the parameters are 456 and 23 (lib/test/binder.cpp:129-190). -/
example : ∃ r stop r' y, Typed demo (.start 1) [36, 33, 52, 53, 54, 59, 50, 51, 126] r stop ∧ r.next demo = some (r', some y) ∧ seen demo y = (some 30, 7, 9, ⟨[456, 23], 3⟩) :=
  C22_params (c := toks true [36, 33, 42, 59, 42, 126]) (ps := [[52, 53, 54], [50, 51]]) (x := ⟨1, toks true [36, 33, 42, 59, 42, 126], 30, 7⟩) demo_run demo_compatible ⟨none, by simp⟩ (by decide +kernel)
    (.key (.key (.param (d := [52, 53, 54]) (by decide) (by decide) (.key (.param (d := [50, 51]) (by decide) (by decide) (.key .nil)))))) (by decide) (by decide) (by decide) (by decide)

/-- The same with one more binding, for `zz`. -/
theorem demo2_run : ∃ b', Run none b' [(none, 1)] (demoCs ++ [(1, plain [122, 122])]) (demoBs ++ [⟨1, plain [122, 122], 10, 8⟩]) := by
  obtain ⟨b', hb⟩ := C22_room (g := 1) (module := 10) (id := 8) (hasParams := false) demo_run ⟨none, by simp⟩ (text := [122, 122]) (keys := [122, 122]) rfl (compatible_of_check (by decide +kernel))
    (by decide +kernel) (by decide +kernel) (.inl (by decide))
  exact ⟨b', .bind (keys := [122, 122]) demo_run ⟨none, by simp⟩ rfl hb⟩

example : ∃ b' : Binder, ∀ (r r' : Resolver) (stop stop' : Bool) (xs xs' : List Binding), Typed demo (.start 1) [97, 98] r stop → Typed b' (.start 1) [97, 98] r' stop' → Passes demo r xs → Passes b' r' xs' →
    xs'.map (seen b') = xs.map (seen demo) := by
  obtain ⟨b', hb⟩ := demo2_run
  refine ⟨b', fun r r' stop stop' xs xs' h1 h2 h3 h4 => ?_⟩
  exact C22_other demo_run demo_compatible demo_nonzero hb (compatible_of_check (by decide +kernel)) (by unfold NonZero; decide +kernel) ⟨none, by simp⟩ ⟨none, by simp⟩ (by decide) (by decide)
    (avoids_of_check (by decide +kernel)) (avoids_of_check (by decide +kernel)) (.inr (by decide)) h1 h2 h3 h4

/-- A second binding for the empty chord reads outside of the buffer.  (lib/test/binder.cpp:50-58 does this.) -/
example : demo.bind none 1 [] 10 8 false = none :=
  (C22_defined demo_run ⟨none, by simp⟩ (text := []) (keys := []) rfl (compatible_of_check (by decide +kernel))).2 ⟨rfl, by decide +kernel, by decide +kernel⟩

example : ∃ b', demo.bind none 1 [122] 10 8 false = some (b', true) :=
  C22_room demo_run ⟨none, by simp⟩ (text := [122]) (keys := [122]) rfl (compatible_of_check (by decide +kernel)) (by decide +kernel) (by decide +kernel) (.inl (by decide))

/-- `\M-C-x^a\t\C-b\M-c` -/
example : translate none [92, 77, 45, 67, 45, 120, 94, 97, 92, 116, 92, 67, 45, 98, 92, 77, 45, 99] = some [27, 24, 1, 9, 2, 27, 99] :=
  C22_text [.metaCtrl 120, .caret 97, .named 116 9, .ctrl 98, .metaKey, .char 99] (by
    refine ⟨trivial, by simp, trivial, by simp, by simp [Item.ok], by simp, trivial, by simp, trivial, fun _ => ⟨by simp, ?_⟩, ⟨by decide, by decide⟩, by simp, trivial⟩
    decide) (by decide) (.inr rfl)

/-- Texts that are not chords (lib/test/binder.cpp:114-127). -/
example : translate none [92, 67] = none ∧ translate none [92, 67, 120] = none ∧ translate none [92, 67, 45] = none ∧ translate none [92, 77] = none ∧ translate none [92, 77, 120] = none ∧
    translate none [92, 77, 45] = none ∧ translate none [92, 77, 45, 67, 45] = none := by decide +kernel

/-- Two groups (lib/test/binder.cpp:18-35). -/
theorem two_groups : Run none ((Binder.start.createGroup (some 111)).1.createGroup (some 222)).1 [(some 222, 5), (some 111, 3), (none, 1)] [] [] :=
  .group (r := 5) (hash := some 222) (.group (r := 3) (hash := some 111) .start rfl) rfl

example : ((Binder.start.createGroup (some 111)).1.createGroup (some 222)).1.getGroup (some 111) = some 3 ∧ ((Binder.start.createGroup (some 111)).1.createGroup (some 222)).1.getGroup (some 333) = some (-1) := by
  have h := (C22_groups two_groups (compatible_of_check (by decide))).1
  rw [h, h]
  decide

example : demo.isBound 1 [97, 98] 0 = some 1 :=
  C22_is_bound demo_run demo_compatible ⟨none, by simp⟩ (by decide) (avoids_of_check (by decide +kernel)) (by decide +kernel) (by
    intro c h1 h2
    have h3 : ∀ x ∈ demoCs, plain [97, 98] <+: x.2 → x.2 = plain [97, 98] := by decide +kernel
    exact h3 _ h1 h2) 0

/-! What is not as it should be -/

def binds (l : List (List Nat × Nat × Nat × Bool)) : Binder := ((bindAll none 1 .start l).map (·.1)).getD .start

/-- `is_bound` says that `a` is not bound if `ab` is bound too. -/
theorem C22_is_bound_prefix : (bindAll none 1 .start [([97], 10, 1, false), ([97, 98], 10, 2, false)]).isSome = true ∧
    (binds [([97], 10, 1, false), ([97, 98], 10, 2, false)]).isBound 1 [97] 0 = some 0 := by
  constructor <;> decide +kernel

/-- `is_bound` says that `acb` is bound if `a` and `b` are: it looks at the key after the one that has no binding. -/
theorem C22_is_bound_wrong : (bindAll none 1 .start [([97], 10, 1, false), ([98], 10, 2, false)]).isSome = true ∧
    (binds [([97], 10, 1, false), ([98], 10, 2, false)]).isBound 1 [97, 99, 98] 0 = some 1 := by
  constructor <;> decide +kernel

/-- A chord of 16 keys is never reported, because the depth of a node has 4 bits. -/
theorem C22_sixteen : ((bindAll none 1 .start [(List.replicate 16 97, 10, 1, false)]).map fun x => x.2.2.length) = some 1 ∧
    ((typeAll (binds [(List.replicate 16 97, 10, 1, false)]) (.start 1) (List.replicate 16 97)).bind fun x => x.1.next (binds [(List.replicate 16 97, 10, 1, false)])).map (·.2) = some none := by
  constructor <;> decide +kernel

/-- A chord that ends with a key that is not ASCII is never reported, because the keys are compared as `char`. -/
theorem C22_high : ((bindAll none 1 .start [([195, 164], 10, 1, false)]).map fun x => x.2.2.length) = some 1 ∧
    ((typeAll (binds [([195, 164], 10, 1, false)]) (.start 1) [195, 164]).bind fun x => x.1.next (binds [([195, 164], 10, 1, false)])).map (·.2) = some none := by
  constructor <;> decide +kernel

end Clink.Bind
