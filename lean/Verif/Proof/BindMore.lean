import Verif.Proof.BindWalk

/-! Lemmas about key bindings: parameters, groups, texts. -/

namespace Clink.Bind

open Spec

variable {b : Binder} {gs : List Nat} {cs : List (Nat × List Tok)} {bs : List Bound} {path : Path}

theorem collect_eq (ds : List (List Nat)) (p : Params) (h : p.values.length + ds.length ≤ 4) :
    collect p ds = ⟨p.values ++ ds.map (value · % 65536), p.len + (ds.map fun d => (d.length : Int) - 1).sum⟩ := by
  induction ds generalizing p with
  | nil => simp [collect]
  | cons d ds ih =>
    simp only [List.length_cons] at h
    have h1 : p.add (value d % 65536) d.length = ⟨p.values ++ [value d % 65536], p.len + d.length - 1⟩ := by rw [Params.add, if_neg (by omega)]
    have h2 : collect p (d :: ds) = collect (p.add (value d % 65536) d.length) ds := rfl
    rw [h2, ih _ (by rw [h1]; simp; omega), h1]
    simp only [List.map_cons, List.sum_cons, List.append_assoc, List.singleton_append, Params.mk.injEq, true_and]
    omega

theorem matches_length {c : List Tok} {ks : List Nat} {ps : List (List Nat)} (h : Matches c ks ps) : (ks.length : Int) = c.length + (ps.map fun d => (d.length : Int) - 1).sum := by
  induction h with
  | nil => rfl
  | key h ih => simp only [List.length_cons] at ih ⊢; omega
  | param hd hn h ih => simp only [List.length_cons, List.length_append, List.map_cons, List.sum_cons] at ih ⊢; omega

theorem matches_last {c : List Tok} {ks : List Nat} {ps : List (List Nat)} (h : Matches c ks ps) {t : Tok} (ht : c.getLast? = some t) : ks.getLast? = some t.key := by
  induction h with
  | nil => simp at ht
  | @key k c ks ps h ih =>
    cases c with
    | nil => cases h; simp at ht; subst ht; rfl
    | cons x c =>
      rw [List.getLast?_cons_cons] at ht
      have := ih ht
      cases ks with
      | nil => simp at this
      | cons y ks => rw [List.getLast?_cons_cons]; exact this
  | @param k c d ks ps hd hn h ih =>
    rw [List.getLast?_cons_cons] at ht
    have := ih ht
    rw [List.getLast?_append, this]
    rfl

theorem range_filter_head {P : Nat → Bool} {p n : Nat} (hn : p < n) (hp : P p = true) (h : ∀ i < p, P i = false) : ((List.range n).filter P).head? = some p := by
  induction n with
  | zero => omega
  | succ n ih =>
    rw [List.range_succ, List.filter_append, List.head?_append]
    by_cases hlt : p < n
    · rw [ih hlt]
      rfl
    · have : p = n := by omega
      subst this
      rw [List.filter_eq_nil_iff.2 (fun i hi => by rw [h i (List.mem_range.1 hi)]; simp)]
      simp [hp]

/-- Typing what matches a chord gives its first binding. -/
theorem params_spec (hi : Inv b gs cs bs path) (hc : Compatible cs) {g : Nat} (hg : g ∈ gs) {c : List Tok} {x : Bound} (hx : bs.find? (fun y => decide (y.group = g ∧ y.chord = c)) = some x)
    {ks : List Nat} {ps : List (List Nat)} (hm : Matches c ks ps) (hne : c ≠ []) (hrep : Reportable c) (h16 : ks.length ≤ 16) (hps : ps.length ≤ 4) :
    ∃ r stop r' y, Typed b (.start g) ks r stop ∧ r.next b = some (r', some y) ∧
      seen b y = (some x.module, x.id, ks.length, ⟨ps.map (value · % 65536), (ks.length : Int) - c.length⟩) := by
  have hb := hi.binds g c
  have hx1 : x ∈ bs := List.mem_of_find?_eq_some hx
  have hx2 : x.group = g ∧ x.chord = c := by have := List.find?_some hx; simpa using this
  obtain ⟨e, he, heb⟩ := bound_path hi hx1
  rw [hx2.1, hx2.2] at he
  obtain ⟨p, stop, hp, ht⟩ := typed_params (r := .start g) (d0 := []) (g := g) (p := g) hi hc hm rfl (root_prim hi.rep hg) (by simp)
    (by show (b.nodes g).hasParams = _; rw [(hi.rep.root g hg).2.2]; rfl) rfl rfl rfl (fun h => absurd rfl h) (by simpa [Resolver.start] using h16) (by simpa using he)
  rw [List.nil_append] at hp
  rw [if_pos rfl, List.nil_append, collect_eq _ _ (by simpa [Resolver.start] using hps)] at ht
  have hlen := matches_length hm
  have hpb : (b.nodes p).bound = true := by
    by_cases h : e = p
    · rw [← h]; exact heb
    · exact hi.dups e p g c he h hp
  have hd := hi.depth p g c hp.1 hpb
  rw [Nat.mod_eq_of_lt hrep.1] at hd
  obtain ⟨c0, t, rfl⟩ : ∃ c0 t, c = c0 ++ [t] := by
    rcases List.eq_nil_or_concat c with h | ⟨c0, t, h⟩
    · exact absurd h hne
    · exact ⟨c0, t, by rw [h, List.concat_eq_append]⟩
  have hkey := hi.rep.keys p g c0 t hp.1
  have hlast := matches_last hm (t := t) (by simp)
  have ht128 : t.key < 128 := hrep.2 t (by simp)
  have hsum : (ps.map fun d => (d.length : Int) - 1).sum = (ks.length : Int) - (c0 ++ [t]).length := by omega
  have hkpos : 0 < ks.length := by
    cases ks with
    | nil => simp at hlast
    | cons _ _ => simp
  obtain ⟨r, hr⟩ : ∃ r : Resolver, r = { Resolver.start g with node := p, params := ⟨ps.map (value · % 65536), (ks.length : Int) - (c0 ++ [t]).length⟩, keys := ks } := ⟨_, rfl⟩
  have ht' : Typed b (.start g) ks r stop := by
    rw [hr]
    rw [hsum] at ht
    simpa [Resolver.start] using ht
  have hfit : r.fits (b.nodes p) = some true := by
    unfold Resolver.fits
    simp only [hpb, Bool.not_true, Bool.false_eq_true, if_false, hkey, hd]
    by_cases h0 : t.key = 0
    · rw [if_pos h0]
    · have hix : (r.tail : Int) + ((c0 ++ [t]).length : Nat) + r.params.len - 1 = ((ks.length - 1 : Nat) : Int) := by
        rw [hr]
        simp only [Resolver.start]
        omega
      rw [if_neg h0, hix, if_neg (by omega), Int.toNat_natCast, show r.keys = ks from by rw [hr], ← List.getLast?_eq_getElem?, hlast, Option.map_some]
      simp [char, ht128]
  have hnext : r.next b = some ({ r with node := (b.nodes p).next }, some ⟨(b.nodes p).module, (b.nodes p).id, ((max 1 (b.nodes p).depth : Nat) + r.params.len).toNat, r.params⟩) := by
    rw [Resolver.next, if_neg (by rw [hr]; simp [Resolver.start])]
    obtain ⟨f, hf⟩ : ∃ f, fuel = f + 1 := ⟨512 * 513 - 1, by decide⟩
    rw [hf, Resolver.search, show r.node = p from by rw [hr], if_neg (inv_pos hi hp.1)]
    simp only
    rw [hfit, Option.bind_some, if_pos rfl]
  refine ⟨r, stop, _, _, ht', hnext, ?_⟩
  · rw [hr]
    simp only [seen, hd]
    -- the node is the first one of the chord
    have h1 : ((List.range b.nextNode).filter fun i => decide (path i = some (g, c0 ++ [t])) && (b.nodes i).bound).head? = some p := by
      refine range_filter_head (hi.rep.alloc p _ hp.1).2 (by simp [hp.1, hpb]) fun i hlt => ?_
      have := hp.2 i hlt
      simp [this]
    have h2 := congrArg List.head? hb
    rw [List.head?_map, h1, List.head?_map, List.head?_filter, hx] at h2
    simp only [Option.map_some, Option.some.injEq, Prod.mk.injEq] at h2
    rw [h2.1, h2.2]
    have h3 : (((max 1 (c0 ++ [t]).length : Nat) : Int) + ((ks.length : Int) - (c0 ++ [t]).length)).toNat = ks.length := by
      have : 1 ≤ (c0 ++ [t]).length := by simp
      omega
    rw [h3]

/-! Groups -/

theorem glinks_ne {s : Nat} {l : List (Option Nat × Nat)} (h : GLinks b path s l) : l ≠ [] := by
  intro he
  subst he
  exact h

theorem glinks_length (l : List (Option Nat × Nat)) {s : Nat} (h : GLinks b path s l) : l.length ≤ s + 1 := by
  induction l generalizing s with
  | nil => simp
  | cons x l ih =>
    cases l with
    | nil => simp
    | cons y l =>
      obtain ⟨h1, h2, h3, h4, h5, h6, h7⟩ := h
      have := ih h7
      simp only [List.length_cons] at this ⊢
      omega

theorem getGroupLoop_spec (l : List (Option Nat × Nat)) {s f hash : Nat} (h : GLinks b path s l) (hf : l.length < f + 1) :
    b.getGroupLoop hash f s = some (((l.lookup (some hash)).map Int.ofNat).getD (-1)) := by
  induction l generalizing s f with
  | nil => exact absurd h id
  | cons x l ih =>
    cases l with
    | nil =>
      obtain ⟨rfl, rfl⟩ := h
      obtain ⟨f, rfl⟩ : ∃ m, f = m + 1 := ⟨f - 1, by simp at hf; omega⟩
      rw [Binder.getGroupLoop, if_pos rfl]
      rfl
    | cons y l =>
      obtain ⟨h1, h2, h3, h4, h5, h6, h7⟩ := h
      obtain ⟨f, rfl⟩ : ∃ m, f = m + 1 := ⟨f - 1, by simp at hf; omega⟩
      rw [Binder.getGroupLoop, if_neg (by omega), h4, List.lookup_cons]
      by_cases he : (b.nodes s).hash = hash
      · rw [if_pos he, he]
        simp
      · rw [if_neg he, ih h7 (by simp at hf ⊢; omega)]
        have : (some hash == some (b.nodes s).hash) = false := by
          simp only [beq_eq_false_iff_ne, ne_eq, Option.some.injEq]
          exact fun h => he h.symm
        rw [this]

theorem glinks_le (l : List (Option Nat × Nat)) {s : Nat} (h : GLinks b path s l) : ∀ x ∈ l, x.2 ≤ s + 1 := by
  induction l generalizing s with
  | nil => simp
  | cons x l ih =>
    cases l with
    | nil =>
      obtain ⟨rfl, rfl⟩ := h
      simp
    | cons y l =>
      obtain ⟨h1, h2, h3, h4, h5, h6, h7⟩ := h
      intro z hz
      rcases List.mem_cons.1 hz with rfl | hz
      · rw [h4]; exact Nat.le_refl _
      · have := ih h7 z hz
        omega

theorem glinks_nodup (l : List (Option Nat × Nat)) {s : Nat} (h : GLinks b path s l) : (l.map (·.2)).Nodup := by
  induction l generalizing s with
  | nil => simp
  | cons x l ih =>
    cases l with
    | nil => simp
    | cons y l =>
      obtain ⟨h1, h2, h3, h4, h5, h6, h7⟩ := h
      rw [List.map_cons, List.nodup_cons]
      refine ⟨?_, ih h7⟩
      intro hm
      obtain ⟨z, hz, he⟩ := List.mem_map.1 hm
      have := glinks_le _ h7 z hz
      rw [h4] at he
      simp only at he
      omega

theorem glinks_name (l : List (Option Nat × Nat)) {s : Nat} (h : GLinks b path s l) : l.lookup none = some 1 := by
  induction l generalizing s with
  | nil => exact absurd h id
  | cons x l ih =>
    cases l with
    | nil =>
      obtain ⟨rfl, rfl⟩ := h
      rfl
    | cons y l =>
      obtain ⟨h1, h2, h3, h4, h5, h6, h7⟩ := h
      rw [h4, List.lookup_cons]
      exact ih h7

theorem getGroup_spec {gs : List (Option Nat × Nat)} (hf : Full b gs cs bs path) (name : Option Nat) : b.getGroup name = some (((gs.lookup name).map Int.ofNat).getD (-1)) := by
  cases name with
  | none =>
    rw [glinks_name gs hf.glinks]
    rfl
  | some h =>
    rw [Binder.getGroup]
    refine getGroupLoop_spec gs hf.glinks ?_
    have h1 := glinks_length gs hf.glinks
    have h2 := hf.inv.rep.next
    have h3 := hf.pos
    have h4 : (b.nodes 0).next < b.nextNode := by
      have := hf.glinks
      cases gs with
      | nil => exact absurd this id
      | cons y l =>
        cases l with
        | nil => rw [this.1]; omega
        | cons z l => exact this.2.1
    have h6 : fuel = 512 * 513 := rfl
    omega

/-! Texts -/

theorem loop_char {room c : Nat} {rest : List Nat} (h1 : c ≠ 94) (h2 : c ≠ 92) : translateLoop (room + 1) (c :: rest) = (translateLoop room rest).map (c :: ·) := by
  rw [translateLoop]
  · exact fun h => h1 h
  · exact fun h => h2 h

theorem loop_quoted {room c : Nat} {rest : List Nat} (h : c ∉ [77, 67, 101, 116, 110, 114, 48]) : translateLoop (room + 1) (92 :: c :: rest) = (translateLoop room rest).map (c :: ·) := by
  simp only [List.mem_cons, List.not_mem_nil, or_false, not_or] at h
  obtain ⟨h1, h2, h3, h4, h5, h6, h7⟩ := h
  rw [translateLoop] <;> simp_all

theorem loop_written (l : List Item) (hl : Written l) {room : Nat} (h : (l.flatMap Item.keys).length ≤ room) : translateLoop room (l.flatMap Item.text) = some (l.flatMap Item.keys) := by
  induction l generalizing room with
  | nil =>
    cases room <;> rfl
  | cons x l ih =>
    obtain ⟨h1, h2, h3⟩ := hl
    rw [List.flatMap_cons, List.flatMap_cons]
    rw [List.flatMap_cons, List.length_append] at h
    cases x with
    | char c =>
      change 1 + (l.flatMap Item.keys).length ≤ room at h
      obtain ⟨room, rfl⟩ : ∃ m, room = m + 1 := ⟨room - 1, by omega⟩
      simp only [Item.text, Item.keys, List.singleton_append]
      rw [loop_char h1.1 h1.2, ih h3 (by omega)]
      rfl
    | caret c =>
      change 1 + (l.flatMap Item.keys).length ≤ room at h
      obtain ⟨room, rfl⟩ : ∃ m, room = m + 1 := ⟨room - 1, by omega⟩
      simp only [Item.text, Item.keys, List.cons_append, List.nil_append]
      rw [translateLoop, ih h3 (by omega)]
      rfl
    | ctrl c =>
      change 1 + (l.flatMap Item.keys).length ≤ room at h
      obtain ⟨room, rfl⟩ : ∃ m, room = m + 1 := ⟨room - 1, by omega⟩
      simp only [Item.text, Item.keys, List.cons_append, List.nil_append]
      rw [translateLoop, ih h3 (by omega)]
      rfl
    | metaCtrl c =>
      change 2 + (l.flatMap Item.keys).length ≤ room at h
      obtain ⟨room, rfl⟩ : ∃ m, room = m + 2 := ⟨room - 2, by omega⟩
      simp only [Item.text, Item.keys, List.cons_append, List.nil_append]
      rw [translateLoop, ih h3 (by omega)]
      rfl
    | named c k =>
      change 1 + (l.flatMap Item.keys).length ≤ room at h
      obtain ⟨room, rfl⟩ : ∃ m, room = m + 1 := ⟨room - 1, by omega⟩
      have h4 := ih h3 (room := room) (by omega)
      simp only [Item.text, Item.keys, List.cons_append, List.nil_append]
      simp only [Item.ok, List.mem_cons, Prod.mk.injEq, List.not_mem_nil, or_false] at h1
      rcases h1 with ⟨rfl, rfl⟩ | ⟨rfl, rfl⟩ | ⟨rfl, rfl⟩ | ⟨rfl, rfl⟩ | ⟨rfl, rfl⟩ <;> rw [translateLoop, h4] <;> rfl
    | quoted c =>
      change 1 + (l.flatMap Item.keys).length ≤ room at h
      obtain ⟨room, rfl⟩ : ∃ m, room = m + 1 := ⟨room - 1, by omega⟩
      simp only [Item.text, Item.keys, List.cons_append, List.nil_append]
      rw [loop_quoted h1, ih h3 (by omega)]
      rfl
    | metaKey =>
      change 1 + (l.flatMap Item.keys).length ≤ room at h
      obtain ⟨room, rfl⟩ : ∃ m, room = m + 1 := ⟨room - 1, by omega⟩
      simp only [Item.text, Item.keys, List.cons_append, List.nil_append]
      obtain ⟨h4, h5⟩ := h2 rfl
      have h6 := ih h3 (room := room) (by omega)
      have h7 : l.flatMap Item.text ≠ [] := by
        obtain ⟨y, l, rfl⟩ := List.exists_cons_of_ne_nil h4
        rw [List.flatMap_cons]
        cases y <;> simp [Item.text]
      obtain ⟨c, rest, hcr⟩ := List.exists_cons_of_ne_nil h7
      rw [hcr] at h5 h6 ⊢
      rw [translateLoop, h6]
      · rfl
      · rintro r h8 h9
        exact h5 ⟨r, by rw [h8, h9]; rfl⟩

/-! `is_bound` -/

theorem isBoundLoop_spec (hi : Inv b gs cs bs path) {g : Nat} (ctrl : Bool) (after : Nat) (rest : List Nat) (hne : rest ≠ []) {ks : List Nat} {p : Nat} (hp : Prim path p g (plain ks))
    (ha : AvoidsParams cs g (ks ++ rest)) {e : Nat} (he : path e = some (g, plain (ks ++ rest))) :
    ∃ q, Prim path q g (plain (ks ++ rest)) ∧ b.isBoundLoop ctrl after p rest = some (if (b.nodes q).child = 0 then 1 else 0) := by
  induction rest generalizing ks p with
  | nil => exact absurd rfl hne
  | cons k rest ih =>
    rw [Binder.isBoundLoop]
    have he' : path e = some (g, plain (ks ++ [k]) ++ plain rest) := by rw [he, ← plain_append]; simp
    obtain ⟨q, hq⟩ := path_prefix hi _ he'
    have hfc : b.findChild p k = some q := by
      rcases findChild_typed hi hp (fun t r => ha ks k rest t r rfl) with ⟨i, h1, h2⟩ | ⟨-, h2⟩
      · rw [← prim_unique h2 hq]; exact h1
      · exact absurd hq.1 (h2 q)
    rw [hfc, Option.bind_some, if_neg (inv_pos hi hq.1)]
    cases rest with
    | nil => exact ⟨q, hq, by rw [if_pos rfl]⟩
    | cons k2 rest =>
      rw [if_neg (by simp), show ks ++ k :: k2 :: rest = (ks ++ [k]) ++ k2 :: rest from by simp]
      exact ih (by simp) hq (by simpa using ha) (by simpa using he)

/-! Checks for examples -/

def compatibleCheck (cs : List (Nat × List Tok)) : Bool :=
  (cs.all fun x => cs.all fun y => (List.range x.2.length).all fun n =>
    match x.2[n]?, y.2[n]? with
    | some t1, some t2 => decide (x.1 = y.1 → x.2.take n = y.2.take n → t1.star = true → t2.star = false → isDigit t2.key = false ∧ t2.key ≠ 42)
    | _, _ => true) &&
  cs.all fun x => (List.range x.2.length).all fun n =>
    match x.2[n]?, x.2[n + 1]? with
    | some t1, some t2 => decide (t1.star = true → isDigit t2.key = false)
    | _, _ => true

theorem compatible_of_check {cs : List (Nat × List Tok)} (h : compatibleCheck cs = true) : Compatible cs := by
  rw [compatibleCheck, Bool.and_eq_true, List.all_eq_true, List.all_eq_true] at h
  constructor
  · intro g p t1 r1 t2 r2 h1 h2
    have h3 := List.all_eq_true.1 (List.all_eq_true.1 (h.1 _ h1) _ h2) p.length (List.mem_range.2 (by simp))
    intro e1 e2
    simpa [e1, e2] using h3
  · intro g p t1 t2 r h1
    have h3 := List.all_eq_true.1 (h.2 _ h1) p.length (List.mem_range.2 (by simp))
    have h4 : (p ++ t1 :: t2 :: r)[p.length + 1]? = some t2 := by
      rw [List.getElem?_append_right (by omega)]
      simp
    simp only at h3
    rw [h4] at h3
    intro e1
    simpa [e1] using h3

def avoidsCheck (cs : List (Nat × List Tok)) (g : Nat) (ks : List Nat) : Bool :=
  (List.range ks.length).all fun n => cs.all fun x =>
    match ks[n]?, x.2[n]? with
    | some k, some t => decide (x.1 = g → x.2.take n = plain (ks.take n) → t.star = true → isDigit k = false ∧ k ≠ 42)
    | _, _ => true

theorem avoids_of_check {cs : List (Nat × List Tok)} {g : Nat} {ks : List Nat} (h : avoidsCheck cs g ks = true) : AvoidsParams cs g ks := by
  rintro p k ks' t r rfl h1
  have h2 := List.all_eq_true.1 (List.all_eq_true.1 h p.length (List.mem_range.2 (by simp))) _ h1
  have h3 : (plain p ++ t :: r)[p.length]? = some t := by
    rw [List.getElem?_append_right (by rw [plain_length]; exact Nat.le_refl _)]
    simp [plain_length]
  have h4 : (plain p ++ t :: r).take p.length = plain p := by
    rw [show p.length = (plain p).length from (plain_length p).symm, List.take_left]
  simp only at h2
  rw [h3, h4] at h2
  intro e1
  simpa [e1] using h2

/-- Calls of `bind` for one group. -/
def bindAll (esc : Option (List Nat)) (g : Nat) (b : Binder) : List (List Nat × Nat × Nat × Bool) → Option (Binder × List (Nat × List Tok) × List Bound)
  | [] => some (b, [], [])
  | (text, module, id, hp) :: l =>
    match b.bind esc g text module id hp with
    | none => none
    | some (b', ok) => (bindAll esc g b' l).map fun (b, cs, bs) =>
      let c := toks hp ((translate esc text).getD [])
      (b, (g, c) :: cs, if ok then ⟨g, c, module, id⟩ :: bs else bs)

theorem bindAll_run {esc : Option (List Nat)} {g : Nat} (l : List (List Nat × Nat × Nat × Bool)) {b b' : Binder} {gs : List (Option Nat × Nat)} {cs cs' : List (Nat × List Tok)} {bs bs' : List Bound}
    (h : Run esc b gs cs bs) (hg : ∃ name, (name, g) ∈ gs) (hb : bindAll esc g b l = some (b', cs', bs')) : Run esc b' gs (cs ++ cs') (bs ++ bs') := by
  induction l generalizing b cs bs cs' bs' with
  | nil =>
    rw [bindAll] at hb
    cases hb
    simpa using h
  | cons x l ih =>
    obtain ⟨text, module, id, hp⟩ := x
    rw [bindAll] at hb
    split at hb
    · simp at hb
    · rename_i b2 ok h1
      rw [Option.map_eq_some_iff] at hb
      obtain ⟨⟨b3, cs3, bs3⟩, h2, h3⟩ := hb
      simp only [Prod.mk.injEq] at h3
      obtain ⟨rfl, rfl, rfl⟩ := h3
      have h4 := ih (.bind h hg rfl h1) h2
      cases ok <;> simpa using h4

/-- What is reported for typed keys, if nothing is claimed. -/
def typeAll (b : Binder) (r : Resolver) : List Nat → Option (Resolver × Bool)
  | [] => some (r, false)
  | k :: ks => match r.step b k with
    | none => none
    | some (r', stop) => if ks = [] then some (r', stop) else if stop then none else typeAll b r' ks

theorem typeAll_typed {b : Binder} (ks : List Nat) {r0 r r' : Resolver} {ks0 : List Nat} {stop : Bool} (h : Typed b r0 ks0 r false) (ht : typeAll b r ks = some (r', stop)) : Typed b r0 (ks0 ++ ks) r' stop := by
  induction ks generalizing r ks0 with
  | nil =>
    rw [typeAll] at ht
    cases ht
    simpa using h
  | cons k ks ih =>
    rw [typeAll] at ht
    split at ht
    · simp at ht
    · rename_i r1 stop1 h1
      split at ht
      · rename_i hk
        cases ht
        subst hk
        exact .snoc h h1
      · split at ht
        · simp at ht
        · rename_i hs
          have hs' : stop1 = false := by simpa using hs
          subst hs'
          have := ih (.snoc h h1) ht
          simpa using this

end Clink.Bind
