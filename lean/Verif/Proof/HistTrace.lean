import Verif.Proof.HistView
import Verif.Props.HistRewrite
import Verif.Spec.HistTrace

/-! Executions of several sessions. -/

namespace Clink.Hist

open Spec

/-- A file changes so that lines stay at their places; a line is deleted only if `D` allows it. -/
structure Evolves (D : List Nat → Prop) (f f' : List Nat) : Prop where
  tag : ∀ tag body, IsTag tag → f = tag ++ [10] ++ body → ∃ body', f' = tag ++ [10] ++ body'
  complete : Complete f → Complete f'
  lines : ∀ x ∈ linesOf f, ∃ t', (x.1, t') ∈ linesOf f' ∧ (t' = x.2 ∨ (IsDeleted t' ∧ (IsDeleted x.2 ∨ D x.2)))

theorem Evolves.refl (D : List Nat → Prop) (f : List Nat) : Evolves D f f := ⟨fun _ b _ h => ⟨b, h⟩, id, fun x hx => ⟨x.2, hx, .inl rfl⟩⟩

theorem Evolves.trans {D : List Nat → Prop} {f g h : List Nat} (h1 : Evolves D f g) (h2 : Evolves D g h) : Evolves D f h := by
  refine ⟨?_, fun hc => h2.complete (h1.complete hc), ?_⟩
  · intro tag body ht hf
    obtain ⟨b, hb⟩ := h1.tag tag body ht hf
    exact h2.tag tag b ht hb
  · intro x hx
    obtain ⟨t, ht, hd⟩ := h1.lines x hx
    obtain ⟨t', ht', hd'⟩ := h2.lines _ ht
    refine ⟨t', ht', ?_⟩
    rcases hd with rfl | ⟨hd, hx⟩
    · exact hd'
    · rcases hd' with rfl | ⟨hd', -⟩
      · exact .inr ⟨hd, hx⟩
      · exact .inr ⟨hd', hx⟩

theorem Evolves.mono {D D' : List Nat → Prop} {f g : List Nat} (h : Evolves D f g) (hd : ∀ t, D t → D' t) : Evolves D' f g :=
  ⟨h.tag, h.complete, fun x hx => by
    obtain ⟨t, ht, h'⟩ := h.lines x hx
    refine ⟨t, ht, ?_⟩
    rcases h' with h' | ⟨h', h''⟩
    · exact .inl h'
    · exact .inr ⟨h', h''.imp id (hd _)⟩⟩

theorem evolves_append {D : List Nat → Prop} {f g : List Nat} (hf : Complete f) (hg : Complete g) : Evolves D f (f ++ g) := by
  refine ⟨?_, fun _ => complete_append hf hg, ?_⟩
  · rintro tag body - rfl
    exact ⟨body ++ g, by simp⟩
  · intro x hx
    refine ⟨x.2, ?_, .inl rfl⟩
    rw [linesOf_append hf]
    exact List.mem_append_left _ hx

theorem tag_ne {tag : List Nat} (h : IsTag tag) : tag ≠ [] := by obtain ⟨x, hx⟩ := h.1; rw [hx]; simp

theorem tag_deleted {tag : List Nat} (h : IsTag tag) : IsDeleted tag := by obtain ⟨x, hx⟩ := h.1; exact ⟨_, hx⟩

theorem linesOf_tagged {tag : List Nat} (h : IsTag tag) (body : List Nat) : linesOf (tag ++ [10] ++ body) = (0, tag) :: lines false (tag.length + 1) [] body := by
  rw [linesOf_append (complete_line tag), linesOf, lines_one h.2.1 (tag_ne h)]
  simp

theorem line_unique {f : List Nat} {o : Nat} {t t' : List Nat} (h : (o, t) ∈ linesOf f) (h' : (o, t') ∈ linesOf f) : t = t' := by
  have hv : ∀ y ∈ linesOf f, ∀ z ∈ linesOf f, y.1 = z.1 → y = z := by
    intro y hy z hz he
    have hs := C30_sorted f
    generalize linesOf f = ls at *
    clear h h'
    induction ls with
    | nil => simp at hy
    | cons a ls ih =>
      rw [List.pairwise_cons] at hs
      rcases List.mem_cons.1 hy with rfl | hy1
      · rcases List.mem_cons.1 hz with rfl | hz1
        · rfl
        · have := hs.1 z hz1; omega
      · rcases List.mem_cons.1 hz with rfl | hz1
        · have := hs.1 y hy1; omega
        · exact ih hy1 hz1 hs.2
  exact congrArg Prod.snd (hv _ h _ h' rfl)

theorem evolves_overwrite {D : List Nat → Prop} {f : List Nat} {o : Nat} {t : List Nat} (h : (o, t) ∈ linesOf f) (hd : IsDeleted t ∨ D t) :
    Evolves D f (overwrite f o [124]) := by
  obtain ⟨g1, g2, g3, g4⟩ := linesOf_bar h
  refine ⟨?_, g3, ?_⟩
  · rintro tag body ht rfl
    have hs := C30_sorted (tag ++ [10] ++ body)
    rw [linesOf_tagged ht] at h hs
    rcases List.mem_cons.1 h with h | h
    · simp only [Prod.mk.injEq] at h
      obtain ⟨rfl, rfl⟩ := h
      obtain ⟨x, hx⟩ := ht.1
      refine ⟨body, ?_⟩
      rw [hx]; simp [overwrite]
    · have hlt := (List.pairwise_cons.1 hs).1 _ h
      simp only [Nat.zero_add] at hlt
      have hge : (tag ++ [10]).length ≤ o := by simp; omega
      have hb := linesOf_bound (f := tag ++ [10] ++ body) (x := (o, t)) (by rw [linesOf_tagged ht]; exact List.mem_cons_of_mem _ h)
      simp only at hb
      refine ⟨body.take (o - (tag ++ [10]).length) ++ [124] ++ body.drop (o + 1 - (tag ++ [10]).length), ?_⟩
      rw [overwrite, Nat.sub_eq_zero_of_le (by omega), List.replicate_zero, List.append_nil, List.take_append, List.drop_append, List.take_of_length_le hge,
        List.drop_of_length_le (by simp at hge ⊢; omega)]
      simp
  · intro x hx
    refine ⟨(bar o x).2, ?_, ?_⟩
    · have hm : bar o x ∈ linesOf (overwrite f o [124]) := by rw [g1]; exact List.mem_map.2 ⟨x, hx, rfl⟩
      have : (bar o x).1 = x.1 := by rw [bar]; split; rename_i h; exact h.symm; rfl
      rw [← this]; exact hm
    · rw [bar]
      split
      · rename_i hxo
        right
        refine ⟨⟨_, rfl⟩, ?_⟩
        have : x = (o, t) := by
          obtain ⟨o', t'⟩ := x
          simp only at hxo
          subst hxo
          rw [line_unique hx h]
        rw [this]; exact hd
      · exact .inl rfl

/-- `o` is the offset of a line that may be deleted. -/
def May (D : List Nat → Prop) (f : List Nat) (o : Nat) : Prop := ∃ t, (o, t) ∈ linesOf f ∧ (IsDeleted t ∨ D t)

theorem May.evolves {D D' : List Nat → Prop} {f g : List Nat} {o : Nat} (h : May D f o) (he : Evolves D' f g) : May D g o := by
  obtain ⟨t, ht, hd⟩ := h
  obtain ⟨t', ht', h'⟩ := he.lines _ ht
  refine ⟨t', ht', ?_⟩
  rcases h' with rfl | ⟨h', -⟩
  · exact hd
  · exact .inl h'

theorem May.mono {D D' : List Nat → Prop} {f : List Nat} {o : Nat} (h : May D f o) (hd : ∀ t, D t → D' t) : May D' f o := by
  obtain ⟨t, ht, h'⟩ := h
  exact ⟨t, ht, h'.imp id (hd _)⟩

theorem evolves_fold {n : Nat} {D : List Nat → Prop} (xs : List Nat) : ∀ {f : List Nat}, (∀ o ∈ xs, May D f o) → Fits n f →
    Evolves D f (xs.foldl (fun f o => overwrite f o [124]) f) ∧ Fits n (xs.foldl (fun f o => overwrite f o [124]) f) := by
  induction xs with
  | nil => intro f _ hf; exact ⟨Evolves.refl _ _, hf⟩
  | cons o xs ih =>
    intro f h hf
    obtain ⟨t, ht, hd⟩ := h o (by simp)
    have he : Evolves D f (overwrite f o [124]) := evolves_overwrite ht hd
    obtain ⟨g1, g2⟩ := ih (f := overwrite f o [124]) (fun o' ho' => (h o' (by simp [ho'])).evolves he) ((linesOf_bar ht).2.2.2 n hf)
    exact ⟨he.trans g1, g2⟩

/-! Files of removals -/

/-- A file of removals in order: if its tag is that of the master file, the offsets are those of lines that may be deleted. -/
def RemOk (D : List Nat → Prop) (master r : List Nat) : Prop :=
  (∃ tag os, IsTag tag ∧ IsRemovals tag os r ∧ ((∃ body, master = tag ++ [10] ++ body) → ∀ o ∈ os, May D master o)) ∨ r.head? ≠ some 124

theorem RemOk.evolves {D D' : List Nat → Prop} {f g r : List Nat} (h : RemOk D f r) (he : Evolves D' f g) (htag : ∃ tag body, IsTag tag ∧ f = tag ++ [10] ++ body) : RemOk D g r := by
  rcases h with ⟨tag, os, h1, h2, h3⟩ | h
  · refine .inl ⟨tag, os, h1, h2, ?_⟩
    rintro ⟨body, hb⟩ o ho
    obtain ⟨tag', body', ht', hf⟩ := htag
    obtain ⟨b', hb'⟩ := he.tag tag' body' ht' hf
    have : tag = tag' := by
      have e1 := extract_tag h1 body (size := 51) (by omega)
      have e2 := extract_tag ht' b' (size := 51) (by omega)
      rw [← hb] at e1; rw [← hb'] at e2
      rw [e1] at e2; exact Option.some.inj e2
    subst this
    exact (h3 ⟨body', hf⟩ o ho).evolves he
  · exact .inr h

theorem RemOk.mono {D D' : List Nat → Prop} {f r : List Nat} (h : RemOk D f r) (hd : ∀ t, D t → D' t) : RemOk D' f r := by
  rcases h with ⟨tag, os, h1, h2, h3⟩ | h
  · exact .inl ⟨tag, os, h1, h2, fun hb o ho => (h3 hb o ho).mono hd⟩
  · exact .inr h

theorem RemOk.add {D : List Nat → Prop} {f r : List Nat} (h : RemOk D f r) {o : Nat} (ho : o < 10 ^ 10) (hm : May D f o) : RemOk D f (r ++ digits o ++ [10]) := by
  rcases h with ⟨tag, os, h1, h2, h3⟩ | h
  · refine .inl ⟨tag, os ++ [o], h1, removals_add h2 ho, ?_⟩
    intro hb o' ho'
    rcases List.mem_append.1 ho' with ho' | ho'
    · exact h3 hb o' ho'
    · rw [List.mem_singleton.1 ho']; exact hm
  · refine .inr ?_
    cases r with
    | nil =>
      obtain ⟨g1, g2, -⟩ := digits_value o
      obtain ⟨c, t, hc⟩ := List.exists_cons_of_ne_nil g1
      have := g2 c (by rw [hc]; simp)
      rw [hc]; simp; omega
    | cons c r => simpa using h

/-- Reading a file of removals. -/
theorem RemOk.read {D : List Nat → Prop} {f r : List Nat} (h : RemOk D f r) (hlen : r.length ≤ 2 ^ 29 - 1) (htag : ∃ tag body, IsTag tag ∧ f = tag ++ [10] ++ body) :
    forEachRemoval f (some r) = some (.inl (-1)) ∨ ∃ tag os, IsTag tag ∧ (∃ body, f = tag ++ [10] ++ body) ∧ IsRemovals tag os r ∧ forEachRemoval f (some r) = some (.inr (good os)) ∧ ∀ o ∈ os, May D f o := by
  obtain ⟨tag', body', ht', hf⟩ := htag
  have hx : extractCtag 512 f = some tag' := by rw [hf]; exact extract_tag ht' _ (by decide)
  rcases h with ⟨tag, os, h1, h2, h3⟩ | h
  · by_cases he : tag = tag'
    · subst he
      exact .inr ⟨tag, os, h1, ⟨body', hf⟩, h2, forEach_match h1 h2 hlen hx, h3 ⟨body', hf⟩⟩
    · exact .inl (forEach_mismatch h1 h2 hx he)
  · left
    have hn : extractCtag 512 r = none := by
      cases r with
      | nil => exact extract_none (c := 0) (by decide) _ (.inl rfl)
      | cons c r => exact extract_none (c := c) (by simpa using h) _ (.inr ⟨r, rfl⟩)
    unfold forEachRemoval
    simp only [hx, hn]
    rw [if_pos]
    simp only [Option.getD_some, Option.getD_none]
    exact tag_ne ht'

/-! The invariant -/

theorem extract_evolves {D : List Nat → Prop} {f g : List Nat} (he : Evolves D f g) (htag : ∃ tag body, IsTag tag ∧ f = tag ++ [10] ++ body) : extractCtag 51 g = extractCtag 51 f := by
  obtain ⟨tag, body, ht, hf⟩ := htag
  obtain ⟨b, hb⟩ := he.tag tag body ht hf
  rw [hb, hf, extract_tag ht _ (by omega), extract_tag ht _ (by omega)]

/-- The entries that a process has loaded: if its tag is that of the master file, they are still at their places or deleted. -/
def Loaded (w : World) (d : Db) (v : View) : Prop := ∀ x ∈ v,
  (x.1 = true → extractCtag 51 w.master = some d.ctag → May (· = x.2.2) w.master x.2.1) ∧
  (x.1 = false → May (· = x.2.2) ((w.sess d.id).lines.getD []) x.2.1)

structure TInv (n : Nat) (s : St) : Prop where
  master : IsFile n s.w.master
  tagged : ∃ tag body, IsTag tag ∧ s.w.master = tag ++ [10] ++ body
  lines : ∀ id f, (s.w.sess id).lines = some f → IsFile n f
  removals : ∀ id r, (s.w.sess id).removals = some r → r.length ≤ 2 ^ 29 - 1 ∧ RemOk (· ∈ s.chosen id) s.w.master r
  alive : ∀ id p, s.dbs id = some p → (s.w.sess id).alive = true
  ids : ∀ id d v, s.dbs id = some (d, v) → d.id = id ∧ (d.ctag = [] ∨ IsTag d.ctag)
  loaded : ∀ id d v, s.dbs id = some (d, v) → Loaded s.w d v

theorem start_inv {n : Nat} {s : St} (h : Start n s) : TInv n s where
  master := h.master
  tagged := h.tagged
  lines := by intro id f hf; rw [h.sess] at hf; simp at hf
  removals := by intro id f hf; rw [h.sess] at hf; simp at hf
  alive := by intro id p hp; rw [h.dbs] at hp; simp at hp
  ids := by intro id d v hp; rw [h.dbs] at hp; simp at hp
  loaded := by intro id d v hp; rw [h.dbs] at hp; simp at hp

theorem loaded_evolves {D D' : List Nat → Prop} {w w' : World} {d : Db} {v : View} (h : Loaded w d v) (hm : Evolves D w.master w'.master)
    (htag : ∃ tag body, IsTag tag ∧ w.master = tag ++ [10] ++ body) (hl : Evolves D' ((w.sess d.id).lines.getD []) ((w'.sess d.id).lines.getD [])) : Loaded w' d v := by
  intro x hx
  obtain ⟨h1, h2⟩ := h x hx
  refine ⟨fun hb he => ?_, fun hb => (h2 hb).evolves hl⟩
  rw [extract_evolves hm htag] at he
  exact (h1 hb he).evolves hm

/-- Steps that change the master file in place, and the files of one session. -/
theorem inv_step {n : Nat} {s : St} (hi : TInv n s) {D : List Nat → Prop} {w' : World} {id : Nat} {p : Option (Db × View)} {more : List (List Nat)}
    (hE : Evolves D s.w.master w'.master) (hM : IsFile n w'.master) (hfr : ∀ i, i ≠ id → w'.sess i = s.w.sess i)
    (hl : ∀ f, (w'.sess id).lines = some f → IsFile n f)
    (hr : ∀ r, (w'.sess id).removals = some r → r.length ≤ 2 ^ 29 - 1 ∧ RemOk (· ∈ more ++ s.chosen id) w'.master r)
    (hp : ∀ d v, p = some (d, v) → (w'.sess id).alive = true ∧ d.id = id ∧ (d.ctag = [] ∨ IsTag d.ctag) ∧ Loaded w' d v) :
    TInv n (s.next w' id p more) := by
  refine ⟨hM, ?_, ?_, ?_, ?_, ?_, ?_⟩
  · obtain ⟨tag, body, h1, h2⟩ := hi.tagged
    obtain ⟨b, hb⟩ := hE.tag tag body h1 h2
    exact ⟨tag, b, h1, hb⟩
  · intro i f hf
    by_cases h : i = id
    · subst h; exact hl f hf
    · simp only [St.next] at hf
      rw [hfr i h] at hf
      exact hi.lines i f hf
  · intro i r hrr
    by_cases h : i = id
    · subst h
      simp only [St.next, if_true] at hrr ⊢
      exact hr r hrr
    · simp only [St.next, if_neg h] at hrr ⊢
      rw [hfr i h] at hrr
      obtain ⟨g1, g2⟩ := hi.removals i r hrr
      exact ⟨g1, g2.evolves hE hi.tagged⟩
  · intro i q hq
    by_cases h : i = id
    · subst h
      simp only [St.next, if_true] at hq ⊢
      exact (hp q.1 q.2 hq).1
    · simp only [St.next, if_neg h] at hq ⊢
      rw [hfr i h]
      exact hi.alive i q hq
  · intro i d v hq
    by_cases h : i = id
    · subst h
      simp only [St.next, if_true] at hq ⊢
      exact ⟨(hp d v hq).2.1, (hp d v hq).2.2.1⟩
    · simp only [St.next, if_neg h] at hq ⊢
      exact hi.ids i d v hq
  · intro i d v hq
    by_cases h : i = id
    · subst h
      simp only [St.next, if_true] at hq ⊢
      exact (hp d v hq).2.2.2
    · simp only [St.next, if_neg h] at hq ⊢
      refine loaded_evolves (hi.loaded i d v hq) hE hi.tagged (D' := fun _ => False) ?_
      rw [(hi.ids i d v hq).1, hfr i h]
      exact Evolves.refl _ _

theorem tag_unique {tag tag' body body' : List Nat} (h : IsTag tag) (h' : IsTag tag') (he : tag ++ [10] ++ body = tag' ++ [10] ++ body') : tag = tag' := by
  have e1 := extract_tag h body (size := 51) (by omega)
  have e2 := extract_tag h' body' (size := 51) (by omega)
  rw [he] at e1
  rw [e1] at e2
  exact Option.some.inj e2

/-! Lines that wait to be removed -/

theorem removals_unique {tag tag' os os' r : List Nat} (ht : IsTag tag) (ht' : IsTag tag') (h : IsRemovals tag os r) (h' : IsRemovals tag' os' r) : tag = tag' ∧ os = os' := by
  have htt : tag = tag' := by
    obtain ⟨ws, h1, -⟩ := h
    obtain ⟨ws', h1', -⟩ := h'
    rw [h1] at h1'
    exact tag_unique ht ht' h1'
  subst htt
  refine ⟨rfl, ?_⟩
  have key : ∀ os, IsRemovals tag os r → ((linesOf r).map (·.2)).tail.map value = os := by
    rintro os ⟨ws, h1, h2, h3⟩
    obtain ⟨ls, l1, l2⟩ := lines_flatten h3 (tag.length + 1)
    rw [h1, linesOf_tagged ht, l1, List.map_cons, List.tail_cons, l2, h2]
  rw [← key os h, ← key os' h']

theorem removals_head {tag os r : List Nat} (ht : IsTag tag) (h : IsRemovals tag os r) : r.head? = some 124 := by
  obtain ⟨ws, h1, -⟩ := h
  obtain ⟨x, hx⟩ := ht.1
  rw [h1, hx]; rfl

theorem remOk_pending {D : List Nat → Prop} {w : World} {id o : Nat} (hr : ∀ r, (w.sess id).removals = some r → RemOk D w.master r) (h : Pending w id o) : May D w.master o := by
  obtain ⟨r, tag, os, body, h1, h2, h3, h4, h5⟩ := h
  rcases hr r h1 with ⟨tag', os', k1, k2, k3⟩ | k
  · obtain ⟨rfl, rfl⟩ := removals_unique h2 k1 h3 k2
    exact k3 ⟨body, h4⟩ o h5
  · exact absurd (removals_head h2 h3) k

theorem pending_same {D : List Nat → Prop} {w w' : World} {id o : Nat} (h : Pending w' id o) (hr : ∀ r, (w'.sess id).removals = some r → (w.sess id).removals = some r)
    (hE : Evolves D w.master w'.master) (htag : ∃ tag body, IsTag tag ∧ w.master = tag ++ [10] ++ body) : Pending w id o := by
  obtain ⟨r, tag, os, body, h1, h2, h3, h4, h5⟩ := h
  obtain ⟨tag', body', t1, t2⟩ := htag
  obtain ⟨b, hb⟩ := hE.tag tag' body' t1 t2
  rw [h4] at hb
  have := tag_unique h2 t1 hb
  subst this
  exact ⟨r, tag, os, body', hr r h1, h2, h3, t2, h5⟩

/-- What a step does to the lines: `D` are the texts to remove. -/
structure Effect (D : List Nat → Prop) (w w' : World) : Prop where
  master : Evolves D w.master w'.master
  lines : ∀ i f, (w.sess i).lines = some f → ∃ f', (w'.sess i).lines = some f' ∧ Evolves D f f'
  pending : ∀ i o, Pending w' i o → Pending w i o ∨ May D w.master o

theorem effect_same {D : List Nat → Prop} {w w' : World} (htag : ∃ tag body, IsTag tag ∧ w.master = tag ++ [10] ++ body) (hm : w'.master = w.master)
    (hl : ∀ i f, (w.sess i).lines = some f → (w'.sess i).lines = some f) (hr : ∀ i r, (w'.sess i).removals = some r → (w.sess i).removals = some r) : Effect D w w' :=
  have hE : Evolves D w.master w'.master := by rw [hm]; exact Evolves.refl _ _
  ⟨hE, fun i f hf => ⟨f, hl i f hf, Evolves.refl _ _⟩, fun i _ h => .inl (pending_same h (hr i) hE htag)⟩

theorem begin_step {n : Nat} {s : St} (hi : TInv n s) {id : Nat} :
    TInv n (s.next (s.w.begin id).1 id (some ((s.w.begin id).2, [])) []) ∧ Effect (fun _ => False) s.w (s.w.begin id).1 := by
  refine ⟨inv_step hi (D := fun _ => False) (Evolves.refl _ _) hi.master ?_ ?_ ?_ ?_, effect_same hi.tagged rfl ?_ ?_⟩
  · intro i h; simp [World.begin, World.setSess, h]
  · intro f hf
    simp only [World.begin, World.setSess, if_true] at hf
    exact hi.lines id f hf
  · intro r hr
    simp only [World.begin, World.setSess, if_true] at hr
    exact hi.removals id r hr
  · intro d v hp
    cases hp
    refine ⟨by simp [World.begin, World.setSess], rfl, .inl rfl, by intro x hx; simp at hx⟩
  · intro i f hf
    by_cases h : i = id
    · subst h; simpa [World.begin, World.setSess] using hf
    · simpa [World.begin, World.setSess, h] using hf
  · intro i r hr
    by_cases h : i = id
    · subst h; simpa [World.begin, World.setSess] using hr
    · simpa [World.begin, World.setSess, h] using hr

theorem tag_of_extract {n : Nat} {s : St} (hi : TInv n s) : ∃ tag body, IsTag tag ∧ s.w.master = tag ++ [10] ++ body ∧ extractCtag 51 s.w.master = some tag := by
  obtain ⟨tag, body, h1, h2⟩ := hi.tagged
  exact ⟨tag, body, h1, h2, by rw [h2]; exact extract_tag h1 _ (by omega)⟩

theorem openMaster_step {n : Nat} {s : St} (hi : TInv n s) {junk tag : List Nat} {id : Nat} {d d' : Db} {v : View} {ok : Bool} {w' : World} (hd : s.dbs id = some (d, v))
    (h : s.w.openMaster junk d ok tag = some (w', d')) :
    TInv n (s.next w' id (some (d', [])) []) ∧ Effect (fun _ => False) s.w w' := by
  obtain ⟨tag', body, h1, h2, h3⟩ := tag_of_extract hi
  obtain ⟨hid, hct⟩ := hi.ids id d v hd
  have hw : w' = s.w ∧ d'.id = id ∧ (d'.ctag = [] ∨ IsTag d'.ctag) := by
    unfold World.openMaster at h
    split at h
    · cases h; exact ⟨rfl, hid, .inl rfl⟩
    · rw [h3] at h
      simp only [Option.some.injEq, Prod.mk.injEq] at h
      obtain ⟨rfl, rfl⟩ := h
      exact ⟨rfl, hid, .inr h1⟩
  obtain ⟨rfl, hid', hct'⟩ := hw
  refine ⟨inv_step hi (D := fun _ => False) (Evolves.refl _ _) hi.master (fun _ _ => rfl) (hi.lines id) (by simpa using hi.removals id) ?_, effect_same hi.tagged rfl (fun _ _ h => h) (fun _ _ h => h)⟩
  intro d1 v1 hp
  cases hp
  exact ⟨hi.alive id _ hd, hid', hct', by intro x hx; simp at hx⟩

theorem openSession_step {n : Nat} {s : St} (hn : 0 < n) (hi : TInv n s) {id : Nat} {d : Db} {v : View} {erase : Bool} (hd : s.dbs id = some (d, v))
    (hr : (s.w.sess id).removals = none) (hsz : Sizes (s.w.openSession d erase).1) :
    TInv n (s.next (s.w.openSession d erase).1 id (some ((s.w.openSession d erase).2, [])) []) ∧
      Effect (fun _ => False) s.w (s.w.openSession d erase).1 := by
  obtain ⟨hid, hct⟩ := hi.ids id d v hd
  have hli : ∀ f, some ((s.w.sess id).lines.getD []) = some f → IsFile n f := by
    intro f hf
    cases hl : (s.w.sess id).lines with
    | none => rw [hl] at hf; cases hf; exact isFile_nil hn
    | some f' => rw [hl] at hf; cases hf; exact hi.lines id _ hl
  have hall : (s.w.openSession d erase).1.master = s.w.master ∧ (∀ i, i ≠ id → (s.w.openSession d erase).1.sess i = s.w.sess i) ∧
      ((s.w.openSession d erase).1.sess id).lines = some ((s.w.sess id).lines.getD []) ∧ ((s.w.openSession d erase).1.sess id).alive = (s.w.sess id).alive ∧
      (((s.w.openSession d erase).1.sess id).removals = none ∨ ((s.w.openSession d erase).1.sess id).removals = some (d.ctag ++ [10])) ∧
      (s.w.openSession d erase).2.id = id ∧ (s.w.openSession d erase).2.ctag = d.ctag := by
    subst hid
    cases erase with
    | false =>
      refine ⟨rfl, ?_, ?_, ?_, .inl ?_, rfl, rfl⟩
      · intro i hi; simp [World.openSession, World.setSess, hi]
      · simp [World.openSession, World.setSess]
      · simp [World.openSession, World.setSess]
      · simp [World.openSession, World.setSess, hr]
    | true =>
      refine ⟨rfl, ?_, ?_, ?_, .inr ?_, rfl, rfl⟩
      · intro i hi; simp [World.openSession, World.setSess, hi]
      · simp [World.openSession, World.setSess]
      · simp [World.openSession, World.setSess]
      · simp [World.openSession, World.setSess, hr, makeRemovals, overwrite]
  obtain ⟨a1, a2, a3, a4, a5, a6, a7⟩ := hall
  refine ⟨inv_step hi (D := fun _ => False) (by rw [a1]; exact Evolves.refl _ _) (by rw [a1]; exact hi.master) a2 (by rw [a3]; exact hli) ?_ ?_, ⟨by rw [a1]; exact Evolves.refl _ _, ?_, ?_⟩⟩
  · intro r hrr
    refine ⟨hsz.removals id r hrr, ?_⟩
    rcases a5 with a5 | a5
    · rw [a5] at hrr; simp at hrr
    · rw [a5] at hrr
      cases hrr
      rcases hct with h0 | ht
      · exact .inr (by rw [h0]; simp)
      · exact .inl ⟨d.ctag, [], ht, ⟨[], by simp, rfl, by simp⟩, by simp⟩
  · intro d1 v1 hp
    cases hp
    exact ⟨by rw [a4]; exact hi.alive id _ hd, a6, by rw [a7]; exact hct, by intro x hx; simp at hx⟩
  · intro i f hf
    refine ⟨f, ?_, Evolves.refl _ _⟩
    by_cases h : i = id
    · subst h
      rw [a3, hf]; rfl
    · rw [a2 i h]; exact hf
  · intro i o hp
    left
    by_cases h : i = id
    · exfalso
      subst h
      obtain ⟨r, tag, os, body, k1, k2, k3, k4, k5⟩ := hp
      rcases a5 with a5 | a5
      · rw [a5] at k1; simp at k1
      · rw [a5] at k1
        cases k1
        rcases hct with h0 | ht
        · have := removals_head k2 k3
          rw [h0] at this; simp at this
        · have := (removals_unique ht k2 (os := []) ⟨[], by simp, rfl, by simp⟩ k3).2
          subst this; simp at k5
    · refine pending_same (D := fun _ => False) hp (fun r hr => ?_) (by rw [a1]; exact Evolves.refl _ _) hi.tagged
      rw [a2 i h] at hr; exact hr

theorem read_mem {junk : List Nat} {b : Bank} (hf : IsFile junk.length b.lines) {es : List Entry} (h : b.read junk = some es) :
    ∀ e ∈ es, (e.offset, e.text) ∈ linesOf b.lines ∧ ¬ IsDeleted e.text := by
  intro e he
  rw [Bank.read] at h
  cases hh : b.hidden with
  | none => rw [hh] at h; simp at h
  | some rs =>
    rw [hh, Option.bind_some] at h
    obtain ⟨es', h3, -, h4⟩ := C30_read junk b.lines rs hf.small hf.complete hf.fits
    rw [h] at h3
    cases h3
    have hm : (e.offset, e.text) ∈ visible rs (linesOf b.lines) := by rw [← h4]; exact List.mem_map.2 ⟨e, he, rfl⟩
    have := List.mem_filter.1 hm
    refine ⟨this.1, ?_⟩
    have h2 := this.2
    simp only [decide_eq_true_eq] at h2
    exact h2.1

theorem find_mem {junk : List Nat} {b : Bank} (hf : IsFile junk.length b.lines) {line : List Nat} {xs : List Nat} (h : b.find junk line = some xs) :
    ∀ o ∈ xs, (o, line) ∈ linesOf b.lines := by
  intro o ho
  rw [Bank.find] at h
  cases hr : b.read junk with
  | none => rw [hr] at h; simp at h
  | some es =>
    rw [hr, Option.map_some, Option.some.injEq] at h
    rw [← h] at ho
    obtain ⟨e, he, rfl⟩ := List.mem_map.1 ho
    obtain ⟨he1, he2⟩ := List.mem_filter.1 he
    have := (read_mem hf hr e he1).1
    simp only [decide_eq_true_eq] at he2
    rwa [he2] at this

theorem view_mem {junk : List Nat} {w : World} {d : Db} {v : View} (hm : IsFile junk.length w.master) (hs : IsFile junk.length ((w.sess d.id).lines.getD []))
    (h : w.view junk d = some v) : ∀ x ∈ v, (x.1 = true → (x.2.1, x.2.2) ∈ linesOf w.master) ∧ (x.1 = false → (x.2.1, x.2.2) ∈ linesOf ((w.sess d.id).lines.getD [])) := by
  have he : w.view junk d = (readOpt junk (w.masterBank d)).bind fun m => (readOpt junk (w.sessionBank d)).bind fun s =>
      some (m.map (fun e => (true, e.offset, e.text)) ++ s.map (fun e => (false, e.offset, e.text))) := by
    unfold World.view
    cases w.masterBank d <;> cases w.sessionBank d <;> rfl
  rw [he] at h
  cases h1 : readOpt junk (w.masterBank d) with
  | none => rw [h1] at h; simp at h
  | some m =>
    cases h2 : readOpt junk (w.sessionBank d) with
    | none => rw [h1, h2] at h; simp at h
    | some l =>
      rw [h1, h2] at h
      simp only [Option.bind_some, Option.some.injEq] at h
      subst h
      intro x hx
      rcases List.mem_append.1 hx with hx | hx
      · obtain ⟨e, he, rfl⟩ := List.mem_map.1 hx
        refine ⟨fun _ => ?_, fun h => by simp at h⟩
        cases hb : w.masterBank d with
        | none => rw [hb] at h1; cases h1; simp at he
        | some b =>
          rw [hb] at h1
          have hl := (masterBank_facts hb).2.2.1
          have := (read_mem (by rw [hl]; exact hm) h1 e he).1
          rwa [hl] at this
      · obtain ⟨e, he, rfl⟩ := List.mem_map.1 hx
        refine ⟨fun h => by simp at h, fun _ => ?_⟩
        cases hb : w.sessionBank d with
        | none => rw [hb] at h2; cases h2; simp at he
        | some b =>
          rw [hb] at h2
          have hl := (sessionBank_facts hb).2.2
          have := (read_mem (by rw [hl]; exact hs) h2 e he).1
          rwa [hl] at this

theorem TInv.getD {n : Nat} {s : St} (hn : 0 < n) (hi : TInv n s) (id : Nat) : IsFile n ((s.w.sess id).lines.getD []) := by
  cases hl : (s.w.sess id).lines with
  | none => exact isFile_nil hn
  | some f => exact hi.lines id f hl

theorem load_step {junk : List Nat} {s : St} (hn : 0 < junk.length) (hi : TInv junk.length s) {id : Nat} {d : Db} {v v' : View} (hd : s.dbs id = some (d, v)) (hv : s.w.view junk d = some v') :
    TInv junk.length (s.next s.w id (some (s.w.reload d, v')) []) ∧ Effect (fun _ => False) s.w s.w := by
  obtain ⟨hid, hct⟩ := hi.ids id d v hd
  obtain ⟨tag, body, h1, h2, h3⟩ := tag_of_extract hi
  have hr : (s.w.reload d).id = id ∧ ((s.w.reload d).ctag = [] ∨ IsTag (s.w.reload d).ctag) := by
    rw [World.reload]
    split
    · exact ⟨hid, .inr (by rw [h3]; exact h1)⟩
    · exact ⟨hid, hct⟩
  refine ⟨inv_step hi (D := fun _ => False) (Evolves.refl _ _) hi.master (fun _ _ => rfl) (hi.lines id) (by intro r h; exact hi.removals id r h) ?_, effect_same hi.tagged rfl (fun _ _ h => h) (fun _ _ h => h)⟩
  intro d1 v1 hp
  cases hp
  refine ⟨hi.alive id _ hd, hr.1, hr.2, ?_⟩
  intro x hx
  have hm := view_mem hi.master (hi.getD hn d.id) hv x hx
  refine ⟨fun hb _ => ⟨_, hm.1 hb, .inr rfl⟩, fun hb => ⟨_, ?_, .inr rfl⟩⟩
  rw [hr.1, ← hid]; exact hm.2 hb

theorem put_eq {n : Nat} {stamp line f : List Nat} (hf : IsFile n f) (D : List Nat → Prop) : Evolves D f (put stamp line f) := by
  have h1 : ∀ w g, Complete g → Evolves D g (addLine g w) := by
    intro w g hg
    rw [addLine, List.append_assoc]
    exact evolves_append hg (complete_line w)
  rw [put]
  split
  · exact h1 _ _ hf.complete
  · have := h1 (timePrefix ++ stamp) f hf.complete
    exact this.trans (h1 _ _ (this.complete hf.complete))

theorem append_step {n : Nat} {s : St} (hn : 0 < n) (hi : TInv n s) {id : Nat} {d : Db} {v : View} {stamp line : List Nat} (hd : s.dbs id = some (d, v))
    (hl : IsLine line) (hln : line.length < n) (hst : IsStamp stamp) (hsn : stamp.length + 7 < n) (hsz : Sizes (s.w.append d stamp line)) :
    TInv n (s.next (s.w.append d stamp line) id (some (d, v)) []) ∧ Effect (fun _ => False) s.w (s.w.append d stamp line) := by
  obtain ⟨hid, hct⟩ := hi.ids id d v hd
  subst hid
  have hal := hi.alive _ _ hd
  have hlo := hi.loaded _ _ _ hd
  by_cases hm : d.master = true ∧ ¬ d.session = true
  · have ha : s.w.append d stamp line = { s.w with master := put stamp line s.w.master } := by
      unfold World.append; rw [if_pos hm]; rfl
    rw [ha] at hsz ⊢
    have hE : ∀ D, Evolves D s.w.master (put stamp line s.w.master) := put_eq hi.master
    refine ⟨inv_step hi (hE fun _ => False) (put_spec hi.master hl hln hst hsn hsz.master).1 (fun _ _ => rfl) (hi.lines _) ?_ ?_, ⟨hE _, fun i f hf => ⟨f, hf, Evolves.refl _ _⟩, fun i o h => .inl (pending_same h (fun r hr => hr) (hE fun _ => False) hi.tagged)⟩⟩
    · intro r hr
      obtain ⟨g1, g2⟩ := hi.removals _ r hr
      exact ⟨g1, g2.evolves (hE fun _ => False) hi.tagged⟩
    · intro d1 v1 hp
      cases hp
      exact ⟨hal, rfl, hct, loaded_evolves hlo (hE fun _ => False) hi.tagged (Evolves.refl (fun _ => False) _)⟩
  · have ha : s.w.append d stamp line = s.w ∨ s.w.append d stamp line = s.w.putSession d ⟨put stamp line ((s.w.sess d.id).lines.getD []), none⟩ := by
      unfold World.append
      rw [if_neg hm]
      cases hb : s.w.sessionBank d with
      | none => exact .inl rfl
      | some b =>
        obtain ⟨-, g2, g3⟩ := sessionBank_facts hb
        right
        obtain ⟨bl, br⟩ := b
        simp only at g2 g3
        subst g2 g3
        rfl
    rcases ha with ha | ha
    · rw [ha]
      refine ⟨inv_step hi (D := fun _ => False) (Evolves.refl _ _) hi.master (fun _ _ => rfl) (hi.lines _) (by intro r h; exact hi.removals _ r h) ?_, effect_same hi.tagged rfl (fun _ _ h => h) (fun _ _ h => h)⟩
      intro d1 v1 hp
      cases hp
      exact ⟨hal, rfl, hct, hlo⟩
    · rw [ha] at hsz ⊢
      have hE : ∀ D, Evolves D ((s.w.sess d.id).lines.getD []) (put stamp line ((s.w.sess d.id).lines.getD [])) := put_eq (hi.getD hn _)
      have hnew : ((s.w.putSession d ⟨put stamp line ((s.w.sess d.id).lines.getD []), none⟩).sess d.id) = { s.w.sess d.id with lines := some (put stamp line ((s.w.sess d.id).lines.getD [])) } := by
        simp [World.putSession, World.setSess]
      have hother : ∀ i, i ≠ d.id → (s.w.putSession d ⟨put stamp line ((s.w.sess d.id).lines.getD []), none⟩).sess i = s.w.sess i := by
        intro i h; simp [World.putSession, World.setSess, h]
      refine ⟨inv_step hi (D := fun _ => False) (Evolves.refl _ _) hi.master hother ?_ ?_ ?_, ⟨Evolves.refl _ _, ?_, ?_⟩⟩
      · rw [hnew]
        intro f hf
        cases hf
        exact (put_spec (hi.getD hn _) hl hln hst hsn (hsz.lines d.id _ (by rw [hnew]))).1
      · rw [hnew]
        intro r hr
        exact hi.removals _ r hr
      · intro d1 v1 hp
        cases hp
        refine ⟨by rw [hnew]; exact hal, rfl, hct, loaded_evolves hlo (Evolves.refl (fun _ => False) _) hi.tagged (D' := fun _ => False) ?_⟩
        rw [hnew]; exact hE _
      · intro i f hf
        by_cases h : i = d.id
        · subst h
          refine ⟨put stamp line f, ?_, put_eq (hi.lines _ f hf) _⟩
          rw [hnew, hf]; rfl
        · refine ⟨f, ?_, Evolves.refl _ _⟩
          rw [hother i h]; exact hf
      · intro i o hp
        refine .inl (pending_same hp (fun r hr => ?_) (Evolves.refl (fun _ => False) _) hi.tagged)
        by_cases h : i = d.id
        · subst h; rw [hnew] at hr; exact hr
        · rw [hother i h] at hr; exact hr

/-! Removing -/

theorem fold_direct {master : Bool} (xs : List Nat) : ∀ (b : Bank), b.removals = none → (∀ o ∈ xs, o ≠ maxOffset) →
    xs.foldl (fun b o => (b.remove master o).1) b = ⟨xs.foldl (fun f o => overwrite f o [124]) b.lines, none⟩ := by
  induction xs with
  | nil => intro b hb _; obtain ⟨l, r⟩ := b; simp only at hb; subst hb; rfl
  | cons o xs ih =>
    intro b hb h
    obtain ⟨l, r⟩ := b
    simp only at hb
    subst hb
    have h1 : (Bank.remove ⟨l, none⟩ master o).1 = ⟨overwrite l o [124], none⟩ := by
      unfold Bank.remove
      rw [if_neg (h o (by simp))]
    rw [List.foldl_cons, h1, ih _ rfl (fun o ho => h o (by simp [ho]))]
    rfl

theorem fold_deferred (xs : List Nat) : ∀ (b : Bank) (r : List Nat), b.removals = some r → (∀ o ∈ xs, o ≠ maxOffset) →
    xs.foldl (fun b o => (b.remove true o).1) b = ⟨b.lines, some (xs.foldl (fun r o => r ++ digits o ++ [10]) r)⟩ := by
  induction xs with
  | nil => intro b r hb _; obtain ⟨l, r⟩ := b; simp only at hb; subst hb; rfl
  | cons o xs ih =>
    intro b r hb h
    obtain ⟨l, r'⟩ := b
    simp only at hb
    subst hb
    have h1 : (Bank.remove ⟨l, some r⟩ true o).1 = ⟨l, some (r ++ digits o ++ [10])⟩ := by
      unfold Bank.remove
      rw [if_neg (h o (by simp))]
    rw [List.foldl_cons, h1, ih _ _ rfl (fun o ho => h o (by simp [ho]))]
    rfl

theorem remOk_fold {D : List Nat → Prop} {f : List Nat} (xs : List Nat) : ∀ {r : List Nat}, RemOk D f r → (∀ o ∈ xs, o < 10 ^ 10 ∧ May D f o) →
    RemOk D f (xs.foldl (fun r o => r ++ digits o ++ [10]) r) := by
  induction xs with
  | nil => intro r h _; exact h
  | cons o xs ih =>
    intro r h hx
    exact ih (h.add (hx o (by simp)).1 (hx o (by simp)).2) (fun o ho => hx o (by simp [ho]))

theorem removals_fold {tag : List Nat} (xs : List Nat) : ∀ {os r : List Nat}, IsRemovals tag os r → (∀ o ∈ xs, o < 10 ^ 10) →
    IsRemovals tag (os ++ xs) (xs.foldl (fun r o => r ++ digits o ++ [10]) r) := by
  induction xs with
  | nil => intro os r h _; simpa using h
  | cons o xs ih =>
    intro os r h hx
    have := ih (removals_add h (hx o (by simp))) (fun o ho => hx o (by simp [ho]))
    simpa using this

theorem head_fold (xs : List Nat) : ∀ {r : List Nat}, r.head? ≠ some 124 → (xs.foldl (fun r o => r ++ digits o ++ [10]) r).head? ≠ some 124 := by
  induction xs with
  | nil => intro r h; exact h
  | cons o xs ih =>
    intro r h
    refine ih ?_
    simp only
    cases r with
    | nil =>
      obtain ⟨g1, g2, -⟩ := digits_value o
      obtain ⟨c, t, hc⟩ := List.exists_cons_of_ne_nil g1
      have := g2 c (by rw [hc]; simp)
      rw [hc]; simp; omega
    | cons c r => simpa using h

theorem may_bound {D : List Nat → Prop} {f : List Nat} {o : Nat} (h : May D f o) (hs : f.length ≤ 2 ^ 29 - 1) : o ≠ maxOffset ∧ o < 10 ^ 10 := by
  obtain ⟨t, ht, -⟩ := h
  have := linesOf_bound ht
  have hmax : maxOffset = 2 ^ 29 - 1 := rfl
  simp only at this
  omega

theorem master_removal {n : Nat} {s : St} (hi : TInv n s) {id : Nat} {d : Db} {v : View} (hd : s.dbs id = some (d, v)) {b : Bank} (hb : s.w.masterBank d = some b)
    {xs : List Nat} {more : List (List Nat)} (hx : ∀ o ∈ xs, May (· ∈ more) s.w.master o)
    (hsz : Sizes (s.w.putMaster d (xs.foldl (fun b o => (b.remove true o).1) b))) :
    TInv n (s.next (s.w.putMaster d (xs.foldl (fun b o => (b.remove true o).1) b)) id (some (d, v)) more) ∧
      Effect (· ∈ more) s.w (s.w.putMaster d (xs.foldl (fun b o => (b.remove true o).1) b)) := by
  obtain ⟨hid, hct⟩ := hi.ids id d v hd
  subst hid
  have hal := hi.alive _ _ hd
  have hlo := hi.loaded _ _ _ hd
  obtain ⟨f1, f2, f3, f4⟩ := masterBank_facts hb
  have hne : ∀ o ∈ xs, o ≠ maxOffset := fun o ho => (may_bound (hx o ho) hi.master.small).1
  cases hr : b.removals with
  | none =>
    rw [fold_direct xs b hr hne, f3] at hsz ⊢
    obtain ⟨m, hm⟩ : ∃ m, m = xs.foldl (fun f o => overwrite f o [124]) s.w.master := ⟨_, rfl⟩
    obtain ⟨e1, e2⟩ := evolves_fold xs hx hi.master.fits
    rw [← hm] at e1 e2 hsz ⊢
    obtain ⟨-, -, p3, p4, p5⟩ := putMaster_bank (w := s.w) (b := ⟨m, none⟩) f1 (fun _ => rfl)
    have hrem : ∀ r, ((s.w.putMaster d ⟨m, none⟩).sess d.id).removals = some r → (s.w.sess d.id).removals = some r := by
      intro r h
      unfold World.putMaster at h
      split at h
      · simp [World.setSess] at h
      · exact h
    have hali : ((s.w.putMaster d ⟨m, none⟩).sess d.id).alive = true := by
      unfold World.putMaster
      split
      · simp [World.setSess, hal]
      · exact hal
    refine ⟨inv_step hi (by rw [p5]; exact e1) (by rw [p5]; exact ⟨e1.complete hi.master.complete, e2, by have := hsz.master; rwa [p5] at this⟩) p3 (by rw [p4]; exact hi.lines _) ?_ ?_, ⟨?_, ?_, ?_⟩⟩
    · intro r h
      obtain ⟨g1, g2⟩ := hi.removals _ r (hrem r h)
      refine ⟨g1, ?_⟩
      rw [p5]
      exact (g2.evolves e1 hi.tagged).mono fun t ht => List.mem_append_right _ ht
    · intro d1 v1 hp
      cases hp
      refine ⟨hali, rfl, hct, loaded_evolves hlo (by rw [p5]; exact e1) hi.tagged (D' := fun _ => False) ?_⟩
      rw [p4]; exact Evolves.refl _ _
    · rw [p5]
      exact e1
    · intro i f hf
      refine ⟨f, ?_, Evolves.refl _ _⟩
      by_cases h : i = d.id
      · subst h; rw [p4]; exact hf
      · rw [p3 i h]; exact hf
    · intro i o hp
      refine .inl (pending_same hp (fun r hr => ?_) (by rw [p5]; exact e1) hi.tagged)
      by_cases h : i = d.id
      · subst h; exact hrem r hr
      · rw [p3 i h] at hr; exact hr
  | some r =>
    rw [fold_deferred xs b r hr hne, f3] at hsz ⊢
    obtain ⟨r', hr'⟩ : ∃ r', r' = xs.foldl (fun r o => r ++ digits o ++ [10]) r := ⟨_, rfl⟩
    rw [← hr'] at hsz ⊢
    obtain ⟨h1, h2⟩ := f4 (by rw [hr]; simp)
    rw [hr] at h2
    obtain ⟨g1, g2⟩ := hi.removals _ r h2.symm
    obtain ⟨-, -, p3, p4, p5⟩ := putMaster_bank (w := s.w) (b := ⟨s.w.master, some r'⟩) f1 (by rw [h1]; simp)
    have hnew : ((s.w.putMaster d ⟨s.w.master, some r'⟩).sess d.id).removals = some r' ∧ ((s.w.putMaster d ⟨s.w.master, some r'⟩).sess d.id).alive = true := by
      unfold World.putMaster
      rw [if_pos h1]
      simp [World.setSess, hal]
    refine ⟨inv_step hi (D := fun _ => False) (by rw [p5]; exact Evolves.refl _ _) (by rw [p5]; exact hi.master) p3 (by rw [p4]; exact hi.lines _) ?_ ?_, ⟨by rw [p5]; exact Evolves.refl _ _, ?_, ?_⟩⟩
    · intro r1 h
      refine ⟨hsz.removals d.id r1 h, ?_⟩
      rw [hnew.1] at h
      cases h
      rw [p5, hr']
      refine remOk_fold xs (g2.mono fun t ht => List.mem_append_right _ ht) ?_
      intro o ho
      exact ⟨(may_bound (hx o ho) hi.master.small).2, (hx o ho).mono fun t ht => List.mem_append_left _ ht⟩
    · intro d1 v1 hp
      cases hp
      refine ⟨hnew.2, rfl, hct, loaded_evolves hlo (D := fun _ => False) (by rw [p5]; exact Evolves.refl _ _) hi.tagged (D' := fun _ => False) ?_⟩
      rw [p4]; exact Evolves.refl _ _
    · intro i f hf
      refine ⟨f, ?_, Evolves.refl _ _⟩
      by_cases h : i = d.id
      · subst h; rw [p4]; exact hf
      · rw [p3 i h]; exact hf
    · intro i o hp
      by_cases h : i = d.id
      · subst h
        obtain ⟨r1, tag, os, body, k1, k2, k3, k4, k5⟩ := hp
        rw [hnew.1] at k1
        cases k1
        rw [p5] at k4
        have hb' : ∀ o ∈ xs, o < 10 ^ 10 := fun o ho => (may_bound (hx o ho) hi.master.small).2
        rcases g2 with ⟨tag', os', q1, q2, -⟩ | g2
        · have := removals_fold xs q2 hb'
          rw [← hr'] at this
          obtain ⟨rfl, rfl⟩ := removals_unique k2 q1 k3 this
          rcases List.mem_append.1 k5 with k5 | k5
          · exact .inl ⟨r, tag, os', body, h2.symm, q1, q2, k4, k5⟩
          · exact .inr (hx o k5)
        · exfalso
          have := removals_head k2 k3
          rw [hr'] at this
          exact head_fold xs g2 this
      · refine .inl (pending_same (D := fun _ => False) hp (fun r hr => ?_) (by rw [p5]; exact Evolves.refl _ _) hi.tagged)
        rw [p3 i h] at hr; exact hr

theorem session_removal {n : Nat} {s : St} (hn : 0 < n) (hi : TInv n s) {id : Nat} {d : Db} {v : View} (hd : s.dbs id = some (d, v)) {b : Bank} (hb : s.w.sessionBank d = some b)
    {xs : List Nat} {more : List (List Nat)} (hx : ∀ o ∈ xs, May (· ∈ more) b.lines o)
    (hsz : Sizes (s.w.putSession d (xs.foldl (fun b o => (b.remove false o).1) b))) :
    TInv n (s.next (s.w.putSession d (xs.foldl (fun b o => (b.remove false o).1) b)) id (some (d, v)) more) ∧
      Effect (· ∈ more) s.w (s.w.putSession d (xs.foldl (fun b o => (b.remove false o).1) b)) := by
  obtain ⟨hid, hct⟩ := hi.ids id d v hd
  subst hid
  have hal := hi.alive _ _ hd
  have hlo := hi.loaded _ _ _ hd
  obtain ⟨f1, f2, f3⟩ := sessionBank_facts hb
  have hF := hi.getD hn d.id
  rw [← f3] at hF
  have hne : ∀ o ∈ xs, o ≠ maxOffset := fun o ho => (may_bound (hx o ho) hF.small).1
  rw [fold_direct xs b f2 hne] at hsz ⊢
  obtain ⟨m, hm⟩ : ∃ m, m = xs.foldl (fun f o => overwrite f o [124]) b.lines := ⟨_, rfl⟩
  obtain ⟨e1, e2⟩ := evolves_fold xs hx hF.fits
  rw [← hm] at e1 e2 hsz ⊢
  have hnew : (s.w.putSession d ⟨m, none⟩).sess d.id = { s.w.sess d.id with lines := some m } := by simp [World.putSession, World.setSess]
  have hother : ∀ i, i ≠ d.id → (s.w.putSession d ⟨m, none⟩).sess i = s.w.sess i := by intro i h; simp [World.putSession, World.setSess, h]
  refine ⟨inv_step hi (D := fun _ => False) (Evolves.refl _ _) hi.master hother ?_ ?_ ?_, ⟨Evolves.refl _ _, ?_, ?_⟩⟩
  · rw [hnew]
    intro f hf
    cases hf
    exact ⟨e1.complete hF.complete, e2, hsz.lines d.id _ (by rw [hnew])⟩
  · rw [hnew]
    intro r hr
    obtain ⟨g1, g2⟩ := hi.removals _ r hr
    exact ⟨g1, g2.mono fun t ht => List.mem_append_right _ ht⟩
  · intro d1 v1 hp
    cases hp
    refine ⟨by rw [hnew]; exact hal, rfl, hct, loaded_evolves hlo (D := fun _ => False) (Evolves.refl _ _) hi.tagged (D' := (· ∈ more)) ?_⟩
    rw [hnew, ← f3]; exact e1
  · intro i f hf
    by_cases h : i = d.id
    · subst h
      refine ⟨m, ?_, ?_⟩
      · rw [hnew]
      · rw [f3, hf] at e1
        exact e1
    · refine ⟨f, ?_, Evolves.refl _ _⟩
      rw [hother i h]; exact hf
  · intro i o hp
    refine .inl (pending_same hp (fun r hr => ?_) (Evolves.refl (fun _ => False) _) hi.tagged)
    by_cases h : i = d.id
    · subst h; rw [hnew] at hr; exact hr
    · rw [hother i h] at hr; exact hr

/-- A step that changes no files. -/
theorem idle_step {n : Nat} {s : St} (hi : TInv n s) {id : Nat} {d : Db} {v : View} (hd : s.dbs id = some (d, v)) (more : List (List Nat)) :
    TInv n (s.next s.w id (some (d, v)) more) ∧ Effect (· ∈ more) s.w s.w := by
  obtain ⟨hid, hct⟩ := hi.ids id d v hd
  refine ⟨inv_step hi (D := fun _ => False) (Evolves.refl _ _) hi.master (fun _ _ => rfl) (hi.lines _) ?_ ?_, effect_same hi.tagged rfl (fun _ _ h => h) (fun _ _ h => h)⟩
  · intro r hr
    obtain ⟨g1, g2⟩ := hi.removals _ r hr
    exact ⟨g1, g2.mono fun t ht => List.mem_append_right _ ht⟩
  · intro d1 v1 hp
    cases hp
    exact ⟨hi.alive _ _ hd, hid, hct, hi.loaded _ _ _ hd⟩

theorem removeMaster_step {junk : List Nat} {s : St} (hi : TInv junk.length s) {id : Nat} {d : Db} {v : View} {line : List Nat} {w' : World} (hd : s.dbs id = some (d, v))
    (h : s.w.removeMaster junk d line = some w') (hsz : Sizes w') :
    TInv junk.length (s.next w' id (some (d, v)) [line]) ∧ Effect (· ∈ [line]) s.w w' := by
  unfold World.removeMaster at h
  cases hb : s.w.masterBank d with
  | none =>
    rw [hb] at h
    cases h
    exact idle_step hi hd _
  | some b =>
    rw [hb] at h
    simp only [Bank.removeLine, Option.map_map] at h
    cases hf : b.find junk line with
    | none => rw [hf] at h; simp at h
    | some xs =>
      rw [hf] at h
      simp only [Option.map_some, Option.some.injEq, Function.comp] at h
      subst h
      have f3 := (masterBank_facts hb).2.2.1
      refine master_removal hi hd hb ?_ hsz
      intro o ho
      have := find_mem (by rw [f3]; exact hi.master) hf o ho
      rw [f3] at this
      exact ⟨line, this, .inr (by simp)⟩

theorem removeSession_step {junk : List Nat} {s : St} (hn : 0 < junk.length) (hi : TInv junk.length s) {id : Nat} {d : Db} {v : View} {line : List Nat} {w' : World} (hd : s.dbs id = some (d, v))
    (h : s.w.removeSession junk d line = some w') (hsz : Sizes w') :
    TInv junk.length (s.next w' id (some (d, v)) [line]) ∧ Effect (· ∈ [line]) s.w w' := by
  unfold World.removeSession at h
  cases hb : s.w.sessionBank d with
  | none =>
    rw [hb] at h
    cases h
    exact idle_step hi hd _
  | some b =>
    rw [hb] at h
    simp only [Bank.removeLine, Option.map_map] at h
    cases hf : b.find junk line with
    | none => rw [hf] at h; simp at h
    | some xs =>
      rw [hf] at h
      simp only [Option.map_some, Option.some.injEq, Function.comp] at h
      subst h
      have f3 := (sessionBank_facts hb).2.2
      refine session_removal hn hi hd hb ?_ hsz
      intro o ho
      exact ⟨line, find_mem (by rw [f3]; exact hi.getD hn _) hf o ho, .inr (by simp)⟩

theorem removeEntry_step {n : Nat} {s : St} (hn : 0 < n) (hi : TInv n s) {id : Nat} {d : Db} {v : View} {master : Bool} {o : Nat} {text : List Nat} (hd : s.dbs id = some (d, v))
    (hin : (master, o, text) ∈ v) (hsz : Sizes (s.w.removeId d master o true).1) :
    TInv n (s.next (s.w.removeId d master o true).1 id (some (d, v)) [text]) ∧ Effect (· ∈ [text]) s.w (s.w.removeId d master o true).1 := by
  have hlo := hi.loaded _ _ _ hd _ hin
  cases master with
  | true =>
    cases hb : s.w.masterBank d with
    | none =>
      have : (s.w.removeId d true o true).1 = s.w := by simp [World.removeId, hb]
      rw [this]; exact idle_step hi hd _
    | some b =>
      have f3 := (masterBank_facts hb).2.2.1
      by_cases hc : extractCtag 51 b.lines = some d.ctag
      · have : (s.w.removeId d true o true).1 = s.w.putMaster d ([o].foldl (fun b o => (b.remove true o).1) b) := by
          simp [World.removeId, hb, hc]
        rw [this] at hsz ⊢
        refine master_removal hi hd hb ?_ hsz
        intro o' ho'
        rw [List.mem_singleton.1 ho']
        rw [f3] at hc
        exact (hlo.1 rfl hc).mono fun t ht => by simp [ht]
      · have : (s.w.removeId d true o true).1 = s.w := by simp [World.removeId, hb, hc]
        rw [this]; exact idle_step hi hd _
  | false =>
    cases hb : s.w.sessionBank d with
    | none =>
      have : (s.w.removeId d false o true).1 = s.w := by simp [World.removeId, hb]
      rw [this]; exact idle_step hi hd _
    | some b =>
      have f3 := (sessionBank_facts hb).2.2
      have : (s.w.removeId d false o true).1 = s.w.putSession d ([o].foldl (fun b o => (b.remove false o).1) b) := by
        simp [World.removeId, hb]
      rw [this] at hsz ⊢
      refine session_removal hn hi hd hb ?_ hsz
      intro o' ho'
      rw [List.mem_singleton.1 ho', f3]
      exact (hlo.2 rfl).mono fun t ht => by simp [ht]

/-! New master files -/

theorem removals_prefix {tag os r : List Nat} (h : IsRemovals tag os r) : ∃ body, r = tag ++ [10] ++ body := by
  obtain ⟨ws, h1, -⟩ := h
  exact ⟨_, h1⟩

theorem inv_reset {n : Nat} {s : St} (hi : TInv n s) {tag body : List Nat} (ht : Fresh s tag) {w' : World} {id : Nat} {d d' : Db} {v : View} (hd : s.dbs id = some (d, v))
    (hm : w'.master = tag ++ [10] ++ body) (hM : IsFile n w'.master) (hl : ∀ i, (w'.sess i).lines = (s.w.sess i).lines) (ha : ∀ i, (w'.sess i).alive = (s.w.sess i).alive)
    (hr : ∀ i r, (w'.sess i).removals = some r → (s.w.sess i).removals = some r ∨ (r.length ≤ 2 ^ 29 - 1 ∧ RemOk (· ∈ s.chosen i) w'.master r))
    (hid : d'.id = id) (hct : d'.ctag = [] ∨ IsTag d'.ctag) : TInv n (s.next w' id (some (d', [])) []) := by
  refine ⟨hM, ⟨tag, body, ht.valid, hm⟩, ?_, ?_, ?_, ?_, ?_⟩
  · intro i f hf
    simp only [St.next] at hf
    rw [hl i] at hf
    exact hi.lines i f hf
  · intro i r h
    simp only [St.next] at h ⊢
    have hch : (if i = id then [] ++ s.chosen i else s.chosen i) = s.chosen i := by split <;> simp
    rw [hch]
    rcases hr i r h with h | h
    · obtain ⟨g1, g2⟩ := hi.removals i r h
      refine ⟨g1, ?_⟩
      rcases g2 with ⟨tag', os, k1, k2, k3⟩ | g2
      · refine .inl ⟨tag', os, k1, k2, ?_⟩
        rintro ⟨b, hb⟩
        exfalso
        rw [hm] at hb
        have := tag_unique ht.valid k1 hb
        subst this
        obtain ⟨b', hb'⟩ := removals_prefix k2
        exact ht.removals i r h b' hb'
      · exact .inr g2
    · exact h
  · intro i q hq
    by_cases h : i = id
    · subst h
      simp only [St.next]
      rw [ha]; exact hi.alive _ _ hd
    · simp only [St.next, if_neg h] at hq ⊢
      rw [ha]; exact hi.alive i q hq
  · intro i d1 v1 hq
    by_cases h : i = id
    · subst h
      simp only [St.next, if_true, Option.some.injEq, Prod.mk.injEq] at hq
      obtain ⟨rfl, rfl⟩ := hq
      exact ⟨hid, hct⟩
    · simp only [St.next, if_neg h] at hq
      exact hi.ids i d1 v1 hq
  · intro i d1 v1 hq
    by_cases h : i = id
    · subst h
      simp only [St.next, if_true, Option.some.injEq, Prod.mk.injEq] at hq
      obtain ⟨rfl, rfl⟩ := hq
      intro x hx; simp at hx
    · simp only [St.next, if_neg h] at hq ⊢
      intro x hx
      refine ⟨fun hb he => ?_, fun hb => ?_⟩
      · exfalso
        rw [hm, extract_tag ht.valid _ (by omega)] at he
        exact ht.ctag i d1 v1 hq (Option.some.inj he).symm
      · rw [hl]; exact (hi.loaded i d1 v1 hq x hx).2 hb

/-- A step that changes no files, after which nothing is loaded. -/
theorem idle_step' {n : Nat} {s : St} (hi : TInv n s) {id : Nat} {d d' : Db} {v : View} (hd : s.dbs id = some (d, v)) (hid : d'.id = id) (hct : d'.ctag = [] ∨ IsTag d'.ctag) :
    TInv n (s.next s.w id (some (d', [])) []) := by
  refine inv_step hi (D := fun _ => False) (Evolves.refl _ _) hi.master (fun _ _ => rfl) (hi.lines _) (by intro r h; exact hi.removals _ r h) ?_
  intro d1 v1 hp
  cases hp
  exact ⟨hi.alive _ _ hd, hid, hct, by intro x hx; simp at hx⟩

theorem clearMaster_step {n : Nat} {s : St} (hi : TInv n s) {id : Nat} {d : Db} {v : View} {tag : List Nat} (hn : tag.length < n) (hd : s.dbs id = some (d, v)) (ht : Fresh s tag) :
    TInv n (s.next (s.w.clearMaster d tag).1 id (some ((s.w.clearMaster d tag).2, [])) []) := by
  obtain ⟨hid, hct⟩ := hi.ids id d v hd
  unfold World.clearMaster
  cases hb : s.w.masterBank d with
  | none => exact idle_step' hi hd hid hct
  | some b =>
    obtain ⟨f1, f2, f3, f4⟩ := masterBank_facts hb
    simp only [Bank.clear]
    obtain ⟨-, -, p3, p4, p5⟩ := putMaster_bank (w := s.w) (b := ⟨addLine [] tag, b.removals.map fun _ => []⟩) f1 (by intro h; simp [f2 h])
    have hmas : (s.w.putMaster d ⟨addLine [] tag, b.removals.map fun _ => []⟩).master = tag ++ [10] ++ [] := by rw [p5]; simp [addLine]
    refine inv_reset hi ht hd hmas ?_ ?_ ?_ ?_ hid (.inr ht.valid)
    · rw [p5]
      have h49 := ht.valid.2.2
      exact isFile_add (isFile_nil (by omega)) hn (by simp [addLine]; omega)
    · intro i
      by_cases h : i = d.id
      · subst h; exact p4
      · rw [p3 i h]
    · intro i
      by_cases h : i = d.id
      · subst h
        unfold World.putMaster
        split
        · simp [World.setSess]
        · rfl
      · rw [p3 i h]
    · intro i r hr
      by_cases h : i = d.id
      · subst h
        unfold World.putMaster at hr
        split at hr
        · simp only [World.setSess, if_true, Option.map_eq_some_iff] at hr
          obtain ⟨_, -, rfl⟩ := hr
          exact .inr ⟨by simp, .inr (by simp)⟩
        · exact .inl hr
      · rw [p3 i h] at hr; exact .inl hr

theorem clearSession_step {n : Nat} {s : St} (hn : 0 < n) (hi : TInv n s) {id : Nat} {d : Db} {v : View} (hd : s.dbs id = some (d, v)) :
    TInv n (s.next (s.w.clearSession d) id (some (d, [])) []) := by
  obtain ⟨hid, hct⟩ := hi.ids id d v hd
  unfold World.clearSession
  cases hb : s.w.sessionBank d with
  | none => exact idle_step' hi hd hid hct
  | some b =>
    subst hid
    simp only
    refine inv_step hi (D := fun _ => False) (Evolves.refl _ _) hi.master ?_ ?_ ?_ ?_
    · intro i h; simp [World.putSession, World.setSess, h]
    · intro f hf
      simp [World.putSession, World.setSess, Bank.clear] at hf
      subst hf; exact isFile_nil hn
    · intro r hr
      simp only [World.putSession, World.setSess, if_true] at hr
      exact hi.removals _ r hr
    · intro d1 v1 hp
      cases hp
      exact ⟨by simp [World.putSession, World.setSess, hi.alive _ _ hd], rfl, hct, by intro x hx; simp at hx⟩

theorem collect_mem {w : World} (ids : List Nat) : ∀ {rs : List (Nat × List Nat)}, collectRemovals w ids = some rs →
    ∀ x ∈ rs, ∃ r, (w.sess x.1).removals = some r ∧ forEachRemoval w.master (some r) = some (.inr x.2) := by
  induction ids with
  | nil => intro rs h x hx; cases h; simp at hx
  | cons i ids ih =>
    intro rs h x hx
    rw [collectRemovals] at h
    cases hc : collectRemovals w ids with
    | none => rw [hc] at h; simp at h
    | some rest =>
      rw [hc] at h
      simp only [Option.bind_eq_bind, Option.bind_some] at h
      have hrest : ∀ (h : some rest = some rs), ∃ r, (w.sess x.1).removals = some r ∧ forEachRemoval w.master (some r) = some (.inr x.2) := by
        intro h; cases h; exact ih hc x hx
      split at h
      · rename_i l r h1 h2
        split at h
        · cases hf : forEachRemoval w.master (some r) with
          | none => rw [hf] at h; simp at h
          | some y =>
            rw [hf] at h
            cases y with
            | inl _ => exact hrest h
            | inr os =>
              simp only [Option.bind_some, Option.some.injEq] at h
              subst h
              rcases List.mem_cons.1 hx with rfl | hx
              · exact ⟨r, h2, hf⟩
              · exact ih hc x hx
        · exact hrest h
      · exact hrest h

/-- A new file of removals. -/
def newRemovals (tag : List Nat) (remap : List (Nat × Nat)) (os : List Nat) : List Nat :=
  tag ++ [10] ++ (os.filterMap fun o => (remap.lookup o).map fun n => digits n ++ [10]).flatten

theorem writeRemovals_spec (tag : List Nat) (remap : List (Nat × Nat)) (rs : List (Nat × List Nat)) : ∀ w : World,
    (writeRemovals tag remap rs w).master = w.master ∧ ∀ i, ((writeRemovals tag remap rs w).sess i).lines = (w.sess i).lines ∧
      ((writeRemovals tag remap rs w).sess i).alive = (w.sess i).alive ∧
      (((writeRemovals tag remap rs w).sess i).removals = (w.sess i).removals ∨ ∃ os, (i, os) ∈ rs ∧ ((writeRemovals tag remap rs w).sess i).removals = some (newRemovals tag remap os)) := by
  induction rs with
  | nil => intro w; exact ⟨rfl, fun i => ⟨rfl, rfl, .inl rfl⟩⟩
  | cons x rs ih =>
    obtain ⟨id, os⟩ := x
    intro w
    rw [writeRemovals]
    obtain ⟨h1, h2⟩ := ih (w.setSess id { w.sess id with removals := some (newRemovals tag remap os) })
    refine ⟨h1, ?_⟩
    intro i
    obtain ⟨g1, g2, g3⟩ := h2 i
    by_cases h : i = id
    · subst h
      simp only [World.setSess, if_true] at g1 g2 g3
      refine ⟨g1, g2, .inr ?_⟩
      rcases g3 with g3 | ⟨os', k1, k2⟩
      · exact ⟨os, by simp, g3⟩
      · exact ⟨os', by simp [k1], k2⟩
    · simp only [World.setSess, if_neg h] at g1 g2 g3
      refine ⟨g1, g2, ?_⟩
      rcases g3 with g3 | ⟨os', k1, k2⟩
      · exact .inl g3
      · exact .inr ⟨os', by simp [k1], k2⟩

theorem lookup_mem {α β : Type} [BEq α] [LawfulBEq α] {k : α} {x : β} (l : List (α × β)) (h : l.lookup k = some x) : (k, x) ∈ l := by
  induction l with
  | nil => simp at h
  | cons y l ih =>
    obtain ⟨a, b⟩ := y
    rw [List.lookup_cons] at h
    split at h
    · rename_i he
      cases h
      rw [eq_of_beq he]; simp
    · exact List.mem_cons_of_mem _ (ih h)

theorem zip_texts (old new : List (Nat × List Nat)) : old.map (·.2) = new.map (·.2) → ∀ {o n : Nat}, (o, n) ∈ (old.map (·.1)).zip (new.map (·.1)) →
    ∃ t, (o, t) ∈ old ∧ (n, t) ∈ new := by
  induction old generalizing new with
  | nil => intro _ o n h; simp at h
  | cons x old ih =>
    intro he o n h
    cases new with
    | nil => simp at h
    | cons y new =>
      simp only [List.map_cons, List.cons.injEq] at he
      simp only [List.map_cons, List.zip_cons_cons] at h
      rcases List.mem_cons.1 h with h | h
      · simp only [Prod.mk.injEq] at h
        obtain ⟨rfl, rfl⟩ := h
        exact ⟨x.2, by simp, by rw [he.1]; simp⟩
      · obtain ⟨t, h1, h2⟩ := ih new he.2 h
        exact ⟨t, by simp [h1], by simp [h2]⟩

theorem zip_exists (old new : List (Nat × List Nat)) : old.map (·.2) = new.map (·.2) → ∀ {o : Nat} {t : List Nat}, (o, t) ∈ old →
    ∃ n, (o, n) ∈ (old.map (·.1)).zip (new.map (·.1)) ∧ (n, t) ∈ new := by
  induction old generalizing new with
  | nil => intro _ o n h; simp at h
  | cons x old ih =>
    intro he o t h
    cases new with
    | nil => simp at he
    | cons y new =>
      simp only [List.map_cons, List.cons.injEq] at he
      rcases List.mem_cons.1 h with rfl | h
      · exact ⟨y.1, by simp, by simp only at he; rw [he.1]; simp⟩
      · obtain ⟨n, h1, h2⟩ := ih new he.2 h
        exact ⟨n, by simp [h1], by simp [h2]⟩

theorem zip_inj (as bs : List Nat) : bs.Pairwise (· < ·) → ∀ {a a' b : Nat}, (a, b) ∈ as.zip bs → (a', b) ∈ as.zip bs → a = a' := by
  induction as generalizing bs with
  | nil => intro _ a a' b h; simp at h
  | cons x as ih =>
    intro hp a a' b h h'
    cases bs with
    | nil => simp at h
    | cons y bs =>
      rw [List.pairwise_cons] at hp
      rw [List.zip_cons_cons] at h h'
      have hno : ∀ {a}, (a, y) ∉ as.zip bs := by
        intro a hm
        have := hp.1 y (List.of_mem_zip hm).2
        omega
      rcases List.mem_cons.1 h with h | h
      · rcases List.mem_cons.1 h' with h' | h'
        · simp only [Prod.mk.injEq] at h h'
          rw [h.1, h'.1]
        · simp only [Prod.mk.injEq] at h
          rw [h.2] at h'; exact absurd h' hno
      · rcases List.mem_cons.1 h' with h' | h'
        · simp only [Prod.mk.injEq] at h'
          rw [h'.2] at h; exact absurd h hno
        · exact ih bs hp.2 h h'

theorem newRemovals_is {tag : List Nat} {remap : List (Nat × Nat)} {os : List Nat} (h : ∀ o ∈ os, ∀ k, remap.lookup o = some k → k < 10 ^ 10) :
    IsRemovals tag (os.filterMap fun o => remap.lookup o) (newRemovals tag remap os) := by
  refine ⟨(os.filterMap fun o => remap.lookup o).map digits, ?_, ?_, ?_⟩
  · rw [newRemovals, List.map_map, List.map_filterMap]
    rfl
  · rw [List.map_map]
    have : (value ∘ digits) = id := by funext k; exact (digits_value k).2.2
    rw [this, List.map_id]
  · intro w hw
    obtain ⟨k, hk, rfl⟩ := List.mem_map.1 hw
    obtain ⟨o, ho, hk⟩ := List.mem_filterMap.1 hk
    exact digits_number (h o ho k hk)

/-- The translated removals are for the same lines. -/
theorem remOk_new {D : List Nat → Prop} {master f tag : List Nat} {remap : List (Nat × Nat)} {old new : List (Nat × List Nat)} (ht : IsTag tag) (hold : List.Sublist old (linesOf master))
    (hnew : linesOf f = (0, tag) :: new) (htx : old.map (·.2) = new.map (·.2)) (hre : remap = (old.map (·.1)).zip (new.map (·.1))) (hsm : f.length ≤ 2 ^ 29 - 1)
    {os : List Nat} (hos : ∀ o ∈ os, May D master o) : RemOk D f (newRemovals tag remap os) ∧ ∀ o ∈ os, ∀ k, remap.lookup o = some k → k < 10 ^ 10 := by
  have key : ∀ o ∈ os, ∀ k, remap.lookup o = some k → May D f k := by
    intro o ho k hk
    have hm := lookup_mem _ hk
    rw [hre] at hm
    obtain ⟨t, h1, h2⟩ := zip_texts old new htx hm
    obtain ⟨t', g1, g2⟩ := hos o ho
    have := line_unique (hold.subset h1) g1
    subst this
    exact ⟨t, by rw [hnew]; exact List.mem_cons_of_mem _ h2, g2⟩
  have hb : ∀ o ∈ os, ∀ k, remap.lookup o = some k → k < 10 ^ 10 := fun o ho k hk => (may_bound (key o ho k hk) hsm).2
  refine ⟨.inl ⟨tag, os.filterMap fun o => remap.lookup o, ht, newRemovals_is hb, ?_⟩, hb⟩
  intro _ k hk
  obtain ⟨o, ho, hk⟩ := List.mem_filterMap.1 hk
  exact key o ho k hk

theorem mem_contents {f t : List Nat} : t ∈ (contents f).map (·.1) ↔ ¬ IsDeleted t ∧ ∃ o, (o, t) ∈ linesOf f := by
  have h : (contents f).map (·.1) = (visible [] (linesOf f)).map (·.2) := by
    rw [← stamped_visible [] ([], none), contents, List.map_map, List.map_map]; rfl
  rw [h]
  constructor
  · intro h
    obtain ⟨x, hx, rfl⟩ := List.mem_map.1 h
    obtain ⟨h1, h2⟩ := List.mem_filter.1 hx
    simp only [decide_eq_true_eq] at h2
    exact ⟨h2.1, x.1, h1⟩
  · rintro ⟨h1, o, h2⟩
    exact List.mem_map.2 ⟨(o, t), List.mem_filter.2 ⟨h2, by simp [h1]⟩, rfl⟩

theorem visible_texts (L : List (Nat × List Nat)) : (visible [] L).map (·.2) = (L.map (·.2)).filter fun t => decide (¬ IsDeleted t) := by
  rw [visible, List.filter_map]
  congr 1
  apply List.filter_congr
  intro x _
  simp

theorem contents_texts (f : List Nat) : (contents f).map (·.1) = ((linesOf f).map (·.2)).filter fun t => decide (¬ IsDeleted t) := by
  rw [← visible_texts, ← stamped_visible [] ([], none), contents, List.map_map, List.map_map]; rfl

/-- If nothing was dropped, all lines were kept. -/
theorem old_all {master f tag : List Nat} {old new : List (Nat × List Nat)} (ht : IsTag tag) (hold : List.Sublist old (linesOf master)) (hnew : linesOf f = (0, tag) :: new)
    (htx : old.map (·.2) = new.map (·.2)) (hc : contents f = contents master) {o : Nat} {t : List Nat} (h : (o, t) ∈ linesOf master) (hd : ¬ IsDeleted t) : (o, t) ∈ old := by
  have e1 := contents_texts f
  rw [hnew, List.map_cons, List.filter_cons, if_neg (by simp [tag_deleted ht]), ← htx, hc, contents_texts master] at e1
  have hl : ∀ L : List (Nat × List Nat), ((L.map (·.2)).filter fun t => decide (¬ IsDeleted t)).length = (L.filter fun x => decide (¬ IsDeleted x.2)).length := by
    intro L; rw [List.filter_map, List.length_map]; rfl
  have e2 := congrArg List.length e1
  rw [hl, hl] at e2
  have hs : List.Sublist (old.filter fun x => decide (¬ IsDeleted x.2)) ((linesOf master).filter fun x => decide (¬ IsDeleted x.2)) := hold.filter _
  have := hs.eq_of_length e2.symm
  have hm : (o, t) ∈ (linesOf master).filter fun x => decide (¬ IsDeleted x.2) := List.mem_filter.2 ⟨h, by simp [hd]⟩
  rw [← this] at hm
  exact (List.mem_filter.1 hm).1

theorem compact_step {junk : List Nat} {s : St} (hn : 49 < junk.length) (hi : TInv junk.length s) {id : Nat} {d d' : Db} {v : View} {limit : Nat} {uniq : Bool} {tag : List Nat}
    {ids : List Nat} {w' : World} (hd : s.dbs id = some (d, v)) (ht : Fresh s tag) (h : s.w.compact junk d limit uniq tag ids = some (w', d')) (hsz : Sizes w') :
    TInv junk.length (s.next w' id (some (d', [])) []) ∧ (∀ i, (w'.sess i).lines = (s.w.sess i).lines) ∧
      (limit = 0 → ∀ t, ¬ IsDeleted t → (∃ o, (o, t) ∈ linesOf s.w.master) → ∃ o, (o, t) ∈ linesOf w'.master) ∧
      (limit = 0 → uniq = false → ∀ o t, (o, t) ∈ linesOf s.w.master → ¬ IsDeleted t → (∀ i, ¬ Pending s.w i o) → ∃ k, (k, t) ∈ linesOf w'.master ∧ ∀ i, ¬ Pending w' i k) := by
  obtain ⟨hid, hct⟩ := hi.ids id d v hd
  unfold World.compact at h
  split at h
  · cases h
    exact ⟨idle_step' hi hd hid hct, fun _ => rfl, fun _ t _ h => h, fun _ _ o t h _ hp => ⟨o, h, hp⟩⟩
  · rename_i hmas
    have h49 := ht.valid.2.2
    cases hc : collectRemovals s.w ids with
    | none => rw [hc] at h; simp at h
    | some rs =>
      obtain ⟨f, remap, old, new, q1, ⟨body, q2⟩, q3, q4, q5, q6, q7⟩ := C35_remap junk s.w.master tag limit uniq hi.master ht.valid (by omega)
      obtain ⟨es, f', remap', L, g1, g2, g3, g4, g5, g6, g7, g8, -⟩ := rewrite_spec limit uniq hi.master ht.valid (by omega)
      rw [q1] at g2
      simp only [Option.some.injEq, Prod.mk.injEq] at g2
      obtain ⟨rfl, rfl⟩ := g2
      rw [hc, q1] at h
      simp only [Option.bind_eq_bind, Option.bind_some, Option.some.injEq, Prod.mk.injEq] at h
      obtain ⟨rfl, rfl⟩ := h
      have hx : (extractCtag 51 f).getD [] = tag := by rw [q2, extract_tag ht.valid _ (by omega)]; rfl
      rw [hx] at hsz ⊢
      obtain ⟨w1, w2⟩ := writeRemovals_spec tag remap rs { s.w with master := f }
      simp only at w1 w2
      have hsm := hsz.master
      rw [w1] at hsm
      refine ⟨inv_reset hi ht hd (by rw [w1]; exact q2) (by rw [w1]; exact ⟨g5, g6, hsm⟩) (fun i => (w2 i).1) (fun i => (w2 i).2.1) ?_ hid (.inr ht.valid), fun i => (w2 i).1, ?_, ?_⟩
      · intro i r hr
        rcases (w2 i).2.2 with k | ⟨os, k1, k2⟩
        · rw [k] at hr; exact .inl hr
        · right
          refine ⟨hsz.removals i r hr, ?_⟩
          rw [k2] at hr
          cases hr
          rw [w1]
          obtain ⟨r0, c1, c2⟩ := collect_mem ids hc _ k1
          obtain ⟨l1, l2⟩ := hi.removals i r0 c1
          rcases l2.read l1 hi.tagged with m | ⟨tag', os', -, -, -, m1, m2⟩
          · rw [m] at c2; simp at c2
          · rw [m1] at c2
            simp only [Option.some.injEq, Sum.inr.injEq] at c2
            refine (remOk_new ht.valid q4 q5 q6 q7 hsm ?_).1
            intro o ho
            rw [← c2] at ho
            exact m2 o (List.mem_filter.1 ho).1
      · rintro rfl t htd ⟨o, ho⟩
        rw [w1]
        obtain ⟨f2, remap2, k1, -, -, k4⟩ := C35_keeps junk s.w.master tag 0 uniq hi.master ht.valid (by omega) (by omega)
        rw [q1] at k1
        simp only [Option.some.injEq, Prod.mk.injEq] at k1
        obtain ⟨rfl, rfl⟩ := k1
        rw [if_pos rfl] at k4
        have hc1 : t ∈ (contents s.w.master).map (·.1) := mem_contents.2 ⟨htd, o, ho⟩
        refine (mem_contents.1 ?_).2
        rw [k4]
        cases uniq with
        | false => exact hc1
        | true =>
          obtain ⟨x, hx, rfl⟩ := List.mem_map.1 hc1
          obtain ⟨y, hy, hy2⟩ := (C35_distinct s.w.master).2.2 x hx
          exact List.mem_map.2 ⟨y, hy, hy2⟩
      · rintro rfl rfl o t hot htd hp
        rw [w1]
        obtain ⟨f2, remap2, k1, -, -, k4⟩ := C35_keeps junk s.w.master tag 0 false hi.master ht.valid (by omega) (by omega)
        rw [q1] at k1
        simp only [Option.some.injEq, Prod.mk.injEq] at k1
        obtain ⟨rfl, rfl⟩ := k1
        rw [if_pos rfl] at k4
        have hold := old_all ht.valid q4 q5 q6 k4 hot htd
        obtain ⟨k, z1, z2⟩ := zip_exists old new q6 hold
        refine ⟨k, by rw [q5]; exact List.mem_cons_of_mem _ z2, ?_⟩
        rintro i ⟨r, tag', os, b, p1, p2, p3, p4, p5⟩
        rw [w1, q2] at p4
        have := tag_unique ht.valid p2 p4
        subst this
        rcases (w2 i).2.2 with k | ⟨os1, k1, k2⟩
        · rw [k] at p1
          obtain ⟨b', hb'⟩ := removals_prefix p3
          exact ht.removals i r p1 b' hb'
        · rw [k2] at p1
          cases p1
          obtain ⟨r0, c1, c2⟩ := collect_mem ids hc _ k1
          obtain ⟨l1, l2⟩ := hi.removals i r0 c1
          rcases l2.read l1 hi.tagged with m | ⟨tag2, os2, n1, ⟨body2, n2⟩, n3, m1, m2⟩
          · rw [m] at c2; simp at c2
          · rw [m1] at c2
            simp only [Option.some.injEq, Sum.inr.injEq] at c2
            have hsub : ∀ x ∈ os1, x ∈ os2 := by
              intro x hx
              rw [← c2] at hx
              exact (List.mem_filter.1 hx).1
            have hb := (remOk_new ht.valid q4 q5 q6 q7 hsm (fun x hx => m2 x (hsub x hx))).2
            obtain ⟨-, rfl⟩ := removals_unique p2 p2 p3 (newRemovals_is hb)
            obtain ⟨o1, ho1, hk1⟩ := List.mem_filterMap.1 p5
            have hz := lookup_mem _ hk1
            rw [q7] at hz
            have hso := C30_sorted f
            rw [q5, List.pairwise_cons] at hso
            have : o = o1 := zip_inj _ _ (List.pairwise_map.2 (hso.2.imp (by intro a b h; omega))) z1 hz
            subst this
            exact hp i ⟨r0, tag2, os2, body2, c1, n1, n3, n2, hsub o ho1⟩

/-! Reaping -/

theorem linesOf_after {f g : List Nat} (hf : Complete f) {o : Nat} {t : List Nat} (h : (o, t) ∈ linesOf g) : (o + f.length, t) ∈ linesOf (f ++ g) := by
  have hs := lines_shift g false 0 f.length [] (by simp)
  rw [Nat.zero_add] at hs
  rw [linesOf_append hf, hs]
  exact List.mem_append_right _ (List.mem_map.2 ⟨(o, t), h, rfl⟩)

theorem fold_other {D : List Nat → Prop} {o : Nat} {t : List Nat} (xs : List Nat) : ∀ {f : List Nat}, (∀ x ∈ xs, May D f x) → (o, t) ∈ linesOf f → o ∉ xs →
    (o, t) ∈ linesOf (xs.foldl (fun f o => overwrite f o [124]) f) := by
  induction xs with
  | nil => intro f _ h _; exact h
  | cons x xs ih =>
    intro f hm h hx
    obtain ⟨u, hu, hd⟩ := hm x (by simp)
    simp only [List.mem_cons, not_or] at hx
    refine ih (fun y hy => (hm y (by simp [hy])).evolves (evolves_overwrite hu hd)) ?_ hx.2
    rw [(linesOf_bar hu).1]
    exact List.mem_map.2 ⟨(o, t), h, by rw [bar, if_neg hx.1]⟩

theorem option_cases {α : Type} (o : Option α) : o = none ∨ ∃ x, o = some x := by cases o <;> simp

theorem reap_step {n : Nat} {s : St} (hn : 0 < n) (hi : TInv n s) {id : Nat} {d : Db} {w' : World} (h : s.w.reap d id = some w') (hsz : Sizes w') :
    TInv n { s with w := w' } ∧ Evolves (· ∈ s.chosen id) s.w.master w'.master ∧ (∀ i, i ≠ id → w'.sess i = s.w.sess i) ∧
      (w'.sess id = s.w.sess id ∨ (d.master = true → ∀ f, (s.w.sess id).lines = some f → ∀ o t, (o, t) ∈ linesOf f → (∃ o', (o', t) ∈ linesOf w'.master) ∨ IsDeleted t ∨ t ∈ s.chosen id)) ∧
      (∀ o t, (o, t) ∈ linesOf s.w.master → ¬ Pending s.w id o → (o, t) ∈ linesOf w'.master) ∧
      (w'.sess id = s.w.sess id ∨ (w'.sess id = {} ∧ (d.master = true → ∀ f, (s.w.sess id).lines = some f → ∀ o t, (o, t) ∈ linesOf f → (o + s.w.master.length, t) ∈ linesOf w'.master))) := by
  have hst : ∀ w', ({ s with w := w' } : St) = s.next w' id (s.dbs id) [] := by
    intro w'
    unfold St.next
    congr 1
    · funext i; split
      · rename_i h; rw [h]
      · rfl
    · funext i; split <;> simp
  have hidle : TInv n s ∧ Evolves (· ∈ s.chosen id) s.w.master s.w.master ∧ (∀ i, i ≠ id → s.w.sess i = s.w.sess i) ∧
      (s.w.sess id = s.w.sess id ∨ (d.master = true → ∀ f, (s.w.sess id).lines = some f → ∀ o t, (o, t) ∈ linesOf f → (∃ o', (o', t) ∈ linesOf s.w.master) ∨ IsDeleted t ∨ t ∈ s.chosen id)) ∧
      (∀ o t, (o, t) ∈ linesOf s.w.master → ¬ Pending s.w id o → (o, t) ∈ linesOf s.w.master) ∧
      (s.w.sess id = s.w.sess id ∨ (s.w.sess id = {} ∧ (d.master = true → ∀ f, (s.w.sess id).lines = some f → ∀ o t, (o, t) ∈ linesOf f → (o + s.w.master.length, t) ∈ linesOf s.w.master))) :=
    ⟨hi, Evolves.refl _ _, fun _ _ => rfl, .inl rfl, fun _ _ h _ => h, .inl rfl⟩
  rw [World.reap] at h
  simp only at h
  rcases option_cases (s.w.sess id).lines with hl | ⟨l, hl⟩
  · rw [hl] at h; cases h; exact hidle
  · rw [hl] at h
    simp only at h
    split at h
    · cases h; exact hidle
    · rename_i hal
      have hdb : s.dbs id = none := by
        cases hh : s.dbs id with
        | none => rfl
        | some p => exact absurd (hi.alive id p hh) hal
      have hF := hi.lines id l hl
      -- the new master file
      have key : ∃ m, w' = ({ s.w with master := m } : World).setSess id {} ∧ Evolves (· ∈ s.chosen id) s.w.master m ∧ Fits n m ∧
          (d.master = true → ∀ o t, (o, t) ∈ linesOf l → (∃ o', (o', t) ∈ linesOf m) ∨ IsDeleted t ∨ t ∈ s.chosen id) ∧
            (∀ o t, (o, t) ∈ linesOf s.w.master → ¬ Pending s.w id o → (o, t) ∈ linesOf m) ∧
            (d.master = true → ∀ o t, (o, t) ∈ linesOf l → (o + s.w.master.length, t) ∈ linesOf m) := by
        by_cases hc : d.master = true ∧ (l.length > 0 ∨ ((s.w.sess id).removals.getD []).length > 0)
        · rw [if_pos hc] at h
          have hE1 : Evolves (· ∈ s.chosen id) s.w.master (s.w.master ++ l) := evolves_append hi.master.complete hF.complete
          have hfit := fits_append hi.master.complete hi.master.fits hF.fits
          have htag : ∃ tag body, IsTag tag ∧ s.w.master ++ l = tag ++ [10] ++ body := by
            obtain ⟨tag, body, t1, t2⟩ := hi.tagged
            obtain ⟨b, hb⟩ := hE1.tag tag body t1 t2
            exact ⟨tag, b, t1, hb⟩
          have hdone : w' = ({ s.w with master := s.w.master ++ l } : World).setSess id {} → ∃ m, w' = ({ s.w with master := m } : World).setSess id {} ∧ Evolves (· ∈ s.chosen id) s.w.master m ∧ Fits n m ∧
              (d.master = true → ∀ o t, (o, t) ∈ linesOf l → (∃ o', (o', t) ∈ linesOf m) ∨ IsDeleted t ∨ t ∈ s.chosen id) ∧
            (∀ o t, (o, t) ∈ linesOf s.w.master → ¬ Pending s.w id o → (o, t) ∈ linesOf m) ∧
            (d.master = true → ∀ o t, (o, t) ∈ linesOf l → (o + s.w.master.length, t) ∈ linesOf m) := by
            intro h
            refine ⟨_, h, hE1, hfit, fun _ o t ht => .inl ⟨_, linesOf_after hi.master.complete ht⟩, ?_, fun _ o t ht => linesOf_after hi.master.complete ht⟩
            intro o t hot _
            rw [linesOf_append hi.master.complete]
            exact List.mem_append_left _ hot
          cases hr : (s.w.sess id).removals with
          | none =>
            rw [hr] at h
            simp [forEachRemoval] at h
            exact hdone h.symm
          | some r =>
            rw [hr] at h
            obtain ⟨r1, r2⟩ := hi.removals id r hr
            rcases (r2.evolves hE1 hi.tagged).read r1 htag with m | ⟨tag', os', n1, ⟨body', n2⟩, n3, m1, m2⟩
            · rw [m] at h
              simp at h
              exact hdone h.symm
            · rw [m1] at h
              simp at h
              obtain ⟨e1, e2⟩ := evolves_fold (n := n) (good os') (fun o ho => m2 o (List.mem_filter.1 ho).1) hfit
              have hpend : ∀ x ∈ good os', Pending s.w id x := by
                intro x hx
                obtain ⟨tag2, body2, t1, t2⟩ := hi.tagged
                obtain ⟨b, hb⟩ := hE1.tag tag2 body2 t1 t2
                rw [n2] at hb
                have := tag_unique n1 t1 hb
                subst this
                exact ⟨r, tag', os', body2, hr, n1, n3, t2, (List.mem_filter.1 hx).1⟩
              have hmay : ∀ x ∈ good os', May (· ∈ s.chosen id) (s.w.master ++ l) x := fun o ho => m2 o (List.mem_filter.1 ho).1
              refine ⟨_, h.symm, hE1.trans e1, e2, ?_, ?_, ?_⟩
              rotate_left
              · intro o t hot hp
                refine fold_other _ hmay ?_ (fun hx => hp (hpend o hx))
                rw [linesOf_append hi.master.complete]
                exact List.mem_append_left _ hot
              · intro _ o t hot
                refine fold_other _ hmay (linesOf_after hi.master.complete hot) (fun hx => ?_)
                obtain ⟨u, hu, -⟩ := remOk_pending (fun r h => (hi.removals id r h).2) (hpend _ hx)
                have := linesOf_bound hu
                simp only at this
                omega
              intro _ o t hot
              obtain ⟨t', ht', hd'⟩ := e1.lines _ (linesOf_after hi.master.complete hot)
              simp only at hd' ht'
              rcases hd' with rfl | ⟨-, hd'⟩
              · exact .inl ⟨_, ht'⟩
              · exact .inr hd'
        · rw [if_neg hc] at h
          simp at h
          have hl0 : d.master = true → l = [] := by
            intro hm
            by_cases hl0 : l.length > 0
            · exact absurd ⟨hm, .inl hl0⟩ hc
            · exact List.length_eq_zero_iff.1 (by omega)
          refine ⟨_, h.symm, Evolves.refl _ _, hi.master.fits, ?_, fun _ _ h _ => h, ?_⟩
          · intro hm o t hot
            rw [hl0 hm] at hot; simp [linesOf, lines] at hot
          · intro hm o t hot
            rw [hl0 hm] at hot; simp [linesOf, lines] at hot
      obtain ⟨m, rfl, k1, k2, k3, k4, k5⟩ := key
      have hm : (({ s.w with master := m } : World).setSess id {}).master = m := rfl
      have hnew : (({ s.w with master := m } : World).setSess id {}).sess id = {} := by simp [World.setSess]
      have hother : ∀ i, i ≠ id → (({ s.w with master := m } : World).setSess id {}).sess i = s.w.sess i := by intro i h; simp [World.setSess, h]
      refine ⟨?_, k1, hother, .inr ?_, k4, .inr ⟨hnew, ?_⟩⟩
      · rw [hst]
        refine inv_step hi k1 ⟨k1.complete hi.master.complete, k2, hsz.master⟩ hother ?_ ?_ ?_
        · rw [hnew]; intro f hf; simp at hf
        · rw [hnew]; intro f hf; simp at hf
        · rw [hdb]; intro d v h; simp at h
      · intro hdm f hf o t hot
        rw [hl] at hf; cases hf
        exact k3 hdm o t hot
      · intro hdm f hf o t hot
        rw [hl] at hf; cases hf
        exact k5 hdm o t hot

theorem exit_step {n : Nat} {s : St} (hi : TInv n s) {id : Nat} {d : Db} {v : View} (hd : s.dbs id = some (d, v)) :
    TInv n (s.next (s.w.finish d).1 id none []) ∧ Effect (fun _ => False) s.w (s.w.finish d).1 := by
  obtain ⟨hid, hct⟩ := hi.ids id d v hd
  subst hid
  refine ⟨inv_step hi (D := fun _ => False) (Evolves.refl _ _) hi.master ?_ ?_ ?_ ?_, effect_same hi.tagged rfl ?_ ?_⟩
  · intro i h; simp [World.finish, World.setSess, h]
  · intro f hf
    simp only [World.finish, World.setSess, if_true] at hf
    exact hi.lines _ f hf
  · intro r hr
    simp only [World.finish, World.setSess, if_true] at hr
    exact hi.removals _ r hr
  · intro d v h; simp at h
  · intro i f hf
    by_cases h : i = d.id
    · subst h; simpa [World.finish, World.setSess] using hf
    · simpa [World.finish, World.setSess, h] using hf
  · intro i r hr
    by_cases h : i = d.id
    · subst h; simpa [World.finish, World.setSess] using hr
    · simpa [World.finish, World.setSess, h] using hr

/-! All steps -/

theorem step_inv {junk : List Nat} {s s' : St} {op : Op} (hn : 49 < junk.length) (hi : TInv junk.length s) (h : Step junk s op s') (hsz : Sizes s'.w) : TInv junk.length s' := by
  have hn0 : 0 < junk.length := by omega
  cases h with
  | begin id hd => exact (begin_step hi).1
  | openMaster id d v ok tag w' d' hd h => exact (openMaster_step hi hd h).1
  | openSession id d v erase hd hr => exact (openSession_step hn0 hi hd hr hsz).1
  | load id d v v' hd hv => exact (load_step hn0 hi hd hv).1
  | append id d v stamp line hd hl hln hst hsn => exact (append_step hn0 hi hd hl hln hst hsn hsz).1
  | removeMaster id d v line w' hd h => exact (removeMaster_step hi hd h hsz).1
  | removeSession id d v line w' hd h => exact (removeSession_step hn0 hi hd h hsz).1
  | removeEntry id d v master o text hd hin => exact (removeEntry_step hn0 hi hd hin hsz).1
  | clearMaster id d v tag hd ht => exact clearMaster_step hi (by have := ht.valid.2.2; omega) hd ht
  | clearSession id d v hd => exact clearSession_step hn0 hi hd
  | compact id d v limit uniq tag ids w' d' hd ht h => exact (compact_step hn hi hd ht h hsz).1
  | reap id d w' h => exact (reap_step hn0 hi h hsz).1
  | exit id d v hd => exact (exit_step hi hd).1

theorem run_inv {junk : List Nat} {s s' : St} {ops : List Op} (hn : 49 < junk.length) (h : Run junk s ops s') : TInv junk.length s → TInv junk.length s' := by
  induction h with
  | nil s => exact id
  | cons h hs _ ih => intro hi; exact ih (step_inv hn hi h hs)

theorem step_chosen {junk : List Nat} {s s' : St} {op : Op} (h : Step junk s op s') (i : Nat) : ∀ t ∈ s.chosen i, t ∈ s'.chosen i := by
  intro t ht
  cases h <;> first | exact ht | (simp only [St.next]; split <;> simp [ht])

theorem effect_kept {D : List Nat → Prop} {w w' : World} {t : List Nat} (he : Effect D w w') (hd : ¬ IsDeleted t) (hD : ¬ D t) (h : Kept t w) : Kept t w' := by
  have hev : ∀ {f f' o}, Evolves D f f' → (o, t) ∈ linesOf f → (o, t) ∈ linesOf f' := by
    intro f f' o hE ho
    obtain ⟨t', h1, h2⟩ := hE.lines _ ho
    rcases h2 with rfl | ⟨-, h2⟩
    · exact h1
    · exact absurd h2 (by simp [hd, hD])
  rcases h with ⟨o, h1, h2⟩ | ⟨id, f, o, h1, h2⟩
  · refine .inl ⟨o, hev he.master h1, ?_⟩
    intro i hp
    rcases he.pending i o hp with hp | ⟨u, hu, hdu⟩
    · exact h2 i hp
    · have := line_unique h1 hu
      subst this
      exact absurd hdu (by simp [hd, hD])
  · obtain ⟨f', h3, h4⟩ := he.lines id f h1
    exact .inr ⟨id, f', o, h3, hev h4 h2⟩

theorem effect_present {D : List Nat → Prop} {w w' : World} {t : List Nat} (he : Effect D w w') (hd : ¬ IsDeleted t) (hD : ¬ D t) (h : Present t w) : Present t w' := by
  have hev : ∀ {f f' o}, Evolves D f f' → (o, t) ∈ linesOf f → (o, t) ∈ linesOf f' := by
    intro f f' o hE ho
    obtain ⟨t', h1, h2⟩ := hE.lines _ ho
    rcases h2 with rfl | ⟨-, h2⟩
    · exact h1
    · exact absurd h2 (by simp [hd, hD])
  rcases h with ⟨o, h1⟩ | ⟨id, f, o, h1, h2⟩
  · exact .inl ⟨o, hev he.master h1⟩
  · obtain ⟨f', h3, h4⟩ := he.lines id f h1
    exact .inr ⟨id, f', o, h3, hev h4 h2⟩

/-- The texts that a step wants to remove. -/
def Wants : Op → List Nat → Prop
  | .removeLine _ t', t => t = t'
  | .removeEntry _ t', t => t = t'
  | _, _ => False

/-- The steps that do not clear, compact or reap. -/
theorem step_effect {junk : List Nat} {s s' : St} {op : Op} (hn : 49 < junk.length) (hi : TInv junk.length s) (h : Step junk s op s') (hsz : Sizes s'.w)
    (ho : ∀ id, op ≠ .clear id) (hc : ∀ id l u, op ≠ .compact id l u) (hr : ∀ id m, op ≠ .reap id m) : Effect (Wants op) s.w s'.w := by
  have hn0 : 0 < junk.length := by omega
  have hwl : ∀ id line, (fun x => x ∈ [line]) = Wants (.removeLine id line) := by intro id line; funext x; simp [Wants]
  have hwe : ∀ id line, (fun x => x ∈ [line]) = Wants (.removeEntry id line) := by intro id line; funext x; simp [Wants]
  cases h with
  | begin id hd => exact (begin_step hi).2
  | openMaster id d v ok tag w' d' hd h => exact (openMaster_step hi hd h).2
  | openSession id d v erase hd hr' => exact (openSession_step hn0 hi hd hr' hsz).2
  | load id d v v' hd hv => exact (load_step hn0 hi hd hv).2
  | append id d v stamp line hd hl hln hst hsn => exact (append_step hn0 hi hd hl hln hst hsn hsz).2
  | removeMaster id d v line w' hd h => rw [← hwl]; exact (removeMaster_step hi hd h hsz).2
  | removeSession id d v line w' hd h => rw [← hwl]; exact (removeSession_step hn0 hi hd h hsz).2
  | removeEntry id d v master o text hd hin => rw [← hwe]; exact (removeEntry_step hn0 hi hd hin hsz).2
  | clearMaster id d v tag hd ht => exact absurd rfl (ho id)
  | clearSession id d v hd => exact absurd rfl (ho id)
  | compact id d v limit uniq tag ids w' d' hd ht h => exact absurd rfl (hc id limit uniq)
  | reap id d w' h => exact absurd rfl (hr id d.master)
  | exit id d v hd => exact (exit_step hi hd).2

theorem step_kept {junk : List Nat} {s s' : St} {op : Op} {t : List Nat} (hn : 49 < junk.length) (hi : TInv junk.length s) (h : Step junk s op s') (hsz : Sizes s'.w)
    (hk : Keeping false t op) (hd : ¬ IsDeleted t) (hp : Kept t s.w) : Kept t s'.w := by
  by_cases hspec : (∃ id l u, op = .compact id l u) ∨ ∃ id m, op = .reap id m
  · cases h with
    | compact id d v limit uniq tag ids w' d' hdb ht h =>
      obtain ⟨h1, h2⟩ := hk
      obtain ⟨-, c2, -, c4⟩ := compact_step hn hi hdb ht h hsz
      rcases hp with ⟨o, p1, p2⟩ | ⟨i, f, o, p1, p2⟩
      · obtain ⟨k, k1, k2⟩ := c4 h1 (by cases uniq with | false => rfl | true => exact absurd (h2 rfl) (by simp)) o t p1 hd p2
        exact .inl ⟨k, k1, k2⟩
      · exact .inr ⟨i, f, o, (c2 i).trans p1, p2⟩
    | reap id d w' h =>
      have hm : d.master = true := hk
      obtain ⟨-, r2, r3, -, r5, r6⟩ := reap_step (by omega) hi h hsz
      have hpend : ∀ i o, Pending w' i o → Pending s.w i o := by
        intro i o hp
        refine pending_same hp (fun r hr => ?_) r2 hi.tagged
        by_cases hid : i = id
        · subst hid
          rcases r6 with r6 | ⟨r6, -⟩
          · rw [r6] at hr; exact hr
          · rw [r6] at hr; simp at hr
        · rw [r3 i hid] at hr; exact hr
      rcases hp with ⟨o, p1, p2⟩ | ⟨i, f, o, p1, p2⟩
      · exact .inl ⟨o, r5 o t p1 (p2 id), fun i hp => p2 i (hpend i o hp)⟩
      · by_cases hid : i = id
        · subst hid
          rcases r6 with r6 | ⟨r6, r7⟩
          · exact .inr ⟨i, f, o, by simp only; rw [r6]; exact p1, p2⟩
          · refine .inl ⟨_, r7 hm f p1 o t p2, ?_⟩
            intro j hp
            obtain ⟨u, hu, -⟩ := remOk_pending (fun r h => (hi.removals j r h).2) (hpend j _ hp)
            have := linesOf_bound hu
            simp only at this
            omega
        · exact .inr ⟨i, f, o, by simp only; rw [r3 i hid]; exact p1, p2⟩
    | _ => simp at hspec
  · simp only [not_or, not_exists] at hspec
    refine effect_kept (step_effect hn hi h hsz ?_ (fun id l u he => hspec.1 id l u he) (fun id m he => hspec.2 id m he)) hd ?_ hp
    · intro id he; rw [he] at hk; exact hk
    · cases op <;> simp [Wants, Keeping] at hk ⊢
      · exact fun h => hk h.symm
      · exact fun h => hk h.symm

theorem step_present {junk : List Nat} {s s' : St} {op : Op} {t : List Nat} (hn : 49 < junk.length) (hi : TInv junk.length s) (h : Step junk s op s') (hsz : Sizes s'.w)
    (hk : Keeping true t op) (hd : ¬ IsDeleted t) (hch : ∀ i, t ∉ s.chosen i) (hp : Present t s.w) : Present t s'.w := by
  by_cases hspec : (∃ id l u, op = .compact id l u) ∨ ∃ id m, op = .reap id m
  · cases h with
    | compact id d v limit uniq tag ids w' d' hdb ht h =>
      obtain ⟨-, c2, c3, -⟩ := compact_step hn hi hdb ht h hsz
      rcases hp with p | ⟨i, f, o, p1, p2⟩
      · exact .inl (c3 hk.1 t hd p)
      · exact .inr ⟨i, f, o, (c2 i).trans p1, p2⟩
    | reap id d w' h =>
      have hm : d.master = true := hk
      obtain ⟨-, r2, r3, r4, -, -⟩ := reap_step (by omega) hi h hsz
      rcases hp with ⟨o, p1⟩ | ⟨i, f, o, p1, p2⟩
      · obtain ⟨t', h1, h2⟩ := r2.lines _ p1
        rcases h2 with rfl | ⟨-, h2 | h2⟩
        · exact .inl ⟨o, h1⟩
        · exact absurd h2 hd
        · exact absurd h2 (hch id)
      · by_cases hid : i = id
        · subst hid
          rcases r4 with r4 | r4
          · exact .inr ⟨i, f, o, by simp only; rw [r4]; exact p1, p2⟩
          · rcases r4 hm f p1 o t p2 with r4 | r4 | r4
            · exact .inl r4
            · exact absurd r4 hd
            · exact absurd r4 (hch i)
        · exact .inr ⟨i, f, o, by simp only; rw [r3 i hid]; exact p1, p2⟩
    | _ => simp at hspec
  · simp only [not_or, not_exists] at hspec
    refine effect_present (step_effect hn hi h hsz ?_ (fun id l u he => hspec.1 id l u he) (fun id m he => hspec.2 id m he)) hd ?_ hp
    · intro id he; rw [he] at hk; exact hk
    · cases op <;> simp [Wants, Keeping] at hk ⊢
      · exact fun h => hk h.symm
      · exact fun h => hk h.symm

end Clink.Hist
