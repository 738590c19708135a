import Verif.Proof.HistView
import Verif.Props.HistRewrite

/-! C31, C32, C37: adding and removing lines. -/

namespace Clink.Hist

open Spec

theorem view_texts_append (v u : View) : (v ++ u : View).texts = v.texts ++ u.texts := by simp [View.texts]

theorem adding_texts (mode : Nat) (x : Bool × Nat × List Nat) (v : View) : (adding mode x v).texts =
    if mode = 1 then (if x.2.2 ∈ v.texts then v.texts else v.texts ++ [x.2.2])
    else if mode = 2 then (v.texts.filter fun t => decide (t ≠ x.2.2)) ++ [x.2.2]
    else v.texts ++ [x.2.2] := by
  rw [adding]
  have hf : View.texts (v.filter fun y => decide (y.2.2 ≠ x.2.2)) = v.texts.filter fun t => decide (t ≠ x.2.2) := by
    rw [View.texts, View.texts, List.filter_map]; rfl
  have hx : View.texts [x] = [x.2.2] := rfl
  by_cases h1 : mode = 1
  · rw [if_pos h1, if_pos h1]
    split
    · rfl
    · rw [view_texts_append, hx]
  · rw [if_neg h1, if_neg h1]
    split
    · rw [view_texts_append, hf, hx]
    · rw [view_texts_append, hx]

/-- Adding a line gives what the mode promises: the old lines stay as they are, in place, except those with the same text in
the mode `erase_prev`; the new line comes last and has an offset of its own.  The files of the other sessions are as before,
and so is the master file if the session has files of its own. -/
theorem C37_add (junk : List Nat) (w : World) (d : Db) (mode : Nat) (ignoreSpace : Bool) (stamp line : List Nat)
    (hr : Ready junk.length w d) (hopen : d.master = true ∨ d.session = true)
    (hl : IsLine line) (hln : line.length < junk.length) (hst : IsStamp stamp) (hsn : stamp.length + 7 < junk.length)
    (hsp : ¬ (ignoreSpace = true ∧ (line.head? = some 32 ∨ line.head? = some 9)))
    (hsm : ∀ w' b, w.add junk d mode ignoreSpace stamp line = some (w', b) → Small w' d) :
    ∃ v w' o, w.view junk d = some v ∧ w.add junk d mode ignoreSpace stamp line = some (w', true) ∧
      w'.view junk d = some (adding mode (!d.session, o, line) v) ∧ Ready junk.length w' d ∧
      (∀ i, i ≠ d.id → w'.sess i = w.sess i) ∧
      (d.session = true → d.removals = true → (w.sess d.id).removals ≠ none → w'.master = w.master) := by
  obtain ⟨vm, vs, hm, hs⟩ := hr.shows
  have hv := view_shows hm hs
  have hb : (d.master || d.session) = true := by simpa using hopen
  obtain ⟨c, t, rfl⟩ := List.exists_cons_of_ne_nil hl.1
  have hsp' : ¬ (ignoreSpace && (c == 32 || c == 9)) = true := by simpa using hsp
  by_cases h1 : mode = 1
  · have ha : w.add junk d mode ignoreSpace stamp (c :: t) =
        some (if (c :: t) ∈ (joined vm vs).texts then (w, true) else (w.append d stamp (c :: t), true)) := by
      rw [World.add, if_neg hsp', if_pos h1, find_shows hm hs, Option.map_some, hb]
      simp only [decide_eq_true_eq]
    by_cases hin : (c :: t) ∈ (joined vm vs).texts
    · refine ⟨_, w, 0, hv, ?_, ?_, hr, fun _ _ => rfl, fun _ _ _ => rfl⟩
      · rw [ha, if_pos hin]
      · rw [hv, adding, if_pos h1, if_pos hin]
    · rw [if_neg hin] at ha
      obtain ⟨vm', vs', o, a1, a2, a3, a4, a5, a6⟩ := append_shows hm hs hr.removals hopen hl hln hst hsn (hsm _ _ ha)
      refine ⟨_, _, o, hv, ha, ?_, shows_ready a1 a2 hr.removals, a4, fun h _ _ => a5 h⟩
      rw [view_shows a1 a2, a3, adding, if_pos h1, if_neg hin]
  · by_cases h2 : mode = 2
    · obtain ⟨w1, r1, r2, r3, r4, r5, r6⟩ := removeMaster_shows hm (c :: t)
      rw [← r3] at hs
      obtain ⟨w2, q1, q2, q3, q4, q5, q6⟩ := removeSession_shows hs (c :: t)
      have ha : w.add junk d mode ignoreSpace stamp (c :: t) = some (w2.append d stamp (c :: t), true) := by
        rw [World.add, if_neg hsp', if_neg h1, if_pos h2, hb, r1]
        show (w1.removeSession junk d (c :: t)).bind _ = _
        rw [q1]; rfl
      have hsm' := hsm _ _ ha
      have hrem : ((w2.append d stamp (c :: t)).sess d.id).removals = (w2.sess d.id).removals := by
        unfold World.append
        simp only
        split
        · rfl
        · split
          · rfl
          · simp [World.putSession, World.setSess]
      have hm1 := r2 (fun r hr => hsm'.removals r (by rw [hrem, q5]; exact hr))
      rw [← q3] at hm1
      obtain ⟨vm', vs', o, a1, a2, a3, a4, a5, a6⟩ := append_shows hm1 q2 hr.removals hopen hl hln hst hsn hsm'
      refine ⟨_, _, o, hv, ha, ?_, shows_ready a1 a2 hr.removals, ?_, ?_⟩
      · rw [view_shows a1 a2, a3, adding, if_neg h1, if_pos h2]
        congr 2
        rw [joined, joined, List.filter_append, List.filter_map, List.filter_map]
        rfl
      · intro i hi; rw [a4 i hi, q4 i hi, r4 i hi]
      · intro hds hdr hne; rw [a5 hds, q6, r6 hdr hne]
    · have ha : w.add junk d mode ignoreSpace stamp (c :: t) = some (w.append d stamp (c :: t), true) := by
        rw [World.add, if_neg hsp', if_neg h1, if_neg h2, hb]
      obtain ⟨vm', vs', o, a1, a2, a3, a4, a5, a6⟩ := append_shows hm hs hr.removals hopen hl hln hst hsn (hsm _ _ ha)
      refine ⟨_, _, o, hv, ha, ?_, shows_ready a1 a2 hr.removals, a4, fun h _ _ => a5 h⟩
      rw [view_shows a1 a2, a3, adding, if_neg h1, if_neg h2]

/-- In the mode `add`: the history is as before, with the new line at the end. -/
theorem C31_add (junk : List Nat) (w : World) (d : Db) (ignoreSpace : Bool) (stamp line : List Nat)
    (hr : Ready junk.length w d) (hopen : d.master = true ∨ d.session = true)
    (hl : IsLine line) (hln : line.length < junk.length) (hst : IsStamp stamp) (hsn : stamp.length + 7 < junk.length)
    (hsp : ¬ (ignoreSpace = true ∧ (line.head? = some 32 ∨ line.head? = some 9)))
    (hsm : ∀ w' b, w.add junk d 0 ignoreSpace stamp line = some (w', b) → Small w' d) :
    ∃ v w' o, w.view junk d = some v ∧ w.add junk d 0 ignoreSpace stamp line = some (w', true) ∧
      w'.view junk d = some (v ++ [(!d.session, o, line)]) ∧ Ready junk.length w' d := by
  obtain ⟨v, w', o, h1, h2, h3, h4, -⟩ := C37_add junk w d 0 ignoreSpace stamp line hr hopen hl hln hst hsn hsp hsm
  exact ⟨v, w', o, h1, h2, h3, h4⟩

/-- A timestamp is read back with its line. -/
theorem C31_stamp (f stamp line : List Nat) (hc : Complete f) (hl : IsLine line) (hst : IsStamp stamp) (hne : stamp ≠ []) :
    contents (addLine (addLine f (timePrefix ++ stamp)) line) = contents f ++ [(line, stamp)] := by
  have hb : ∀ c ∈ timePrefix ++ stamp, ¬ IsBreak c := by
    intro c hc
    rcases List.mem_append.1 hc with hc | hc
    · have : ∀ c ∈ timePrefix, ¬ IsBreak c := by decide
      exact this c hc
    · exact hst c hc
  have hc1 : Complete (addLine f (timePrefix ++ stamp)) := by
    rw [addLine, List.append_assoc]; exact complete_append hc (complete_line _)
  rw [contents, linesOf_add hc1 hl.2.1 hl.1, linesOf_add hc hb (by simp [timePrefix]), List.append_assoc]
  have hnt : ¬ IsTime line := by
    rintro ⟨s, hs⟩
    exact hl.2.2 ⟨_, hs⟩
  have : ∀ (ls : List (Nat × List Nat)) t o o', stamped [] t (ls ++ ([(o, timePrefix ++ stamp)] ++ [(o', line)])) = stamped [] t ls ++ [(o', line, stamp, some o)] := by
    intro ls
    induction ls with
    | nil =>
      intro t o o'
      have ht : IsTime (timePrefix ++ stamp) := ⟨stamp, rfl⟩
      have hd : (timePrefix ++ stamp).drop 7 = stamp := rfl
      simp [stamped, ht, hl.2.2, hnt, hd]
    | cons x ls ih =>
      intro t o o'
      rw [List.cons_append, stamped, stamped]
      split
      · exact ih _ _ _
      split
      · exact ih _ _ _
      split
      · exact ih _ _ _
      · rw [ih, List.cons_append]
  rw [this, List.map_append]
  rfl

/-! C37: many lines. -/

/-- Adding lines one after the other; the files do not become too large. -/
inductive Adds (junk : List Nat) (d : Db) (mode : Nat) : World → List (List Nat × List Nat) → World → Prop
  | nil (w : World) : Adds junk d mode w [] w
  | cons {w w1 w2 : World} {stamp line : List Nat} {xs : List (List Nat × List Nat)} {b : Bool}
      (h : w.add junk d mode false stamp line = some (w1, b)) (hs : Small w1 d) (hx : Adds junk d mode w1 xs w2) :
      Adds junk d mode w ((stamp, line) :: xs) w2

theorem adds_spec {junk : List Nat} {d : Db} {mode : Nat} {w w' : World} {xs : List (List Nat × List Nat)} (h : Adds junk d mode w xs w')
    (hr : Ready junk.length w d) (hopen : d.master = true ∨ d.session = true)
    (hx : ∀ x ∈ xs, IsLine x.2 ∧ x.2.length < junk.length ∧ IsStamp x.1 ∧ x.1.length + 7 < junk.length) :
    ∃ (v v' : View) (os : List Nat), w.view junk d = some v ∧ w'.view junk d = some v' ∧ Ready junk.length w' d ∧ os.length = xs.length ∧
      v' = (os.zip xs).foldl (fun v x => adding mode (!d.session, x.1, x.2.2) v) v := by
  induction h with
  | nil w =>
    obtain ⟨vm, vs, hm, hs⟩ := hr.shows
    exact ⟨_, _, [], view_shows hm hs, view_shows hm hs, hr, rfl, rfl⟩
  | @cons w w1 w2 stamp line xs b h hs hxs ih =>
    obtain ⟨g1, g2, g3, g4⟩ := hx (stamp, line) (by simp)
    obtain ⟨v, w1', o, h1, h2, h3, h4, -⟩ := C37_add junk w d mode false stamp line hr hopen g1 g2 g3 g4 (by simp)
      (by intro w' b' h'; rw [h] at h'; cases h'; exact hs)
    rw [h] at h2
    cases h2
    obtain ⟨v1, v2, os, i1, i2, i3, i4, i5⟩ := ih h4 (fun x hx' => hx x (by simp [hx']))
    rw [h3] at i1
    cases i1
    exact ⟨v, v2, o :: os, h1, i2, i3, by simp [i4], by simpa using i5⟩

theorem texts_fold {mode : Nat} {m : Bool} (xs : List (List Nat × List Nat)) : ∀ (os : List Nat) (v : View), os.length = xs.length →
    ((os.zip xs).foldl (fun v x => adding mode (m, x.1, x.2.2) v) v).texts = (xs.map (·.2)).foldl (fun ts line =>
      if mode = 1 then (if line ∈ ts then ts else ts ++ [line])
      else if mode = 2 then (ts.filter fun t => decide (t ≠ line)) ++ [line] else ts ++ [line]) v.texts := by
  induction xs with
  | nil => intro os v h; rw [List.length_nil, List.length_eq_zero_iff] at h; subst h; rfl
  | cons x xs ih =>
    intro os v h
    cases os with
    | nil => simp at h
    | cons o os =>
      rw [List.zip_cons_cons, List.foldl_cons, ih os _ (by simpa using h), adding_texts, List.map_cons, List.foldl_cons]

theorem lasts_snoc {α : Type} [DecidableEq α] (l : List α) (x : α) : lasts id (l ++ [x]) = ((lasts id l).filter fun t => decide (t ≠ x)) ++ [x] := by
  induction l with
  | nil => simp [lasts]
  | cons y l ih =>
    rw [List.cons_append, lasts, lasts]
    simp only [List.map_id, id] at ih ⊢
    by_cases hy : y ∈ l
    · rw [if_pos (by simp [hy]), if_pos hy, ih]
    · by_cases hyx : y = x
      · subst hyx
        rw [if_pos (by simp), if_neg hy, ih, List.filter_cons]
        simp
      · rw [if_neg (by simp [hy, hyx]), if_neg hy, ih, List.filter_cons]
        simp [hyx]

theorem firsts_mem {α : Type} [DecidableEq α] (l : List α) (x : α) : x ∈ firsts l ↔ x ∈ l := by
  induction l with
  | nil => simp [firsts]
  | cons y l ih =>
    rw [firsts, List.mem_cons, List.mem_cons, List.mem_filter, ih]
    by_cases h : x = y <;> simp [h]

theorem firsts_snoc {α : Type} [DecidableEq α] (l : List α) (x : α) : firsts (l ++ [x]) = if x ∈ l then firsts l else firsts l ++ [x] := by
  induction l with
  | nil => simp [firsts]
  | cons y l ih =>
    rw [List.cons_append, firsts, firsts, ih]
    by_cases hx : x ∈ l
    · simp [hx]
    · by_cases hy : x = y
      · subst hy
        simp [hx]
      · simp [hx, hy]

theorem lasts_nodup {α : Type} [DecidableEq α] (l : List α) : (lasts id l).Nodup := by
  induction l with
  | nil => simp [lasts]
  | cons x l ih =>
    rw [lasts]
    split
    · exact ih
    · rename_i h
      rw [List.nodup_cons]
      refine ⟨fun hm => h ?_, ih⟩
      have : ∀ l : List α, ∀ y ∈ lasts id l, y ∈ l := by
        intro l
        induction l with
        | nil => simp [lasts]
        | cons z l ih =>
          intro y hy
          rw [lasts] at hy
          split at hy
          · exact List.mem_cons_of_mem _ (ih y hy)
          · rcases List.mem_cons.1 hy with rfl | hy
            · simp
            · exact List.mem_cons_of_mem _ (ih y hy)
      simpa using this l x hm

theorem firsts_nodup {α : Type} [DecidableEq α] (l : List α) : (firsts l).Nodup := by
  induction l with
  | nil => simp [firsts]
  | cons x l ih =>
    rw [firsts, List.nodup_cons]
    exact ⟨by simp, ih.filter _⟩

theorem lasts_self {α : Type} [DecidableEq α] {l : List α} (h : l.Nodup) : lasts id l = l := by
  induction l with
  | nil => rfl
  | cons x l ih =>
    rw [List.nodup_cons] at h
    rw [lasts, List.map_id, id, if_neg h.1, ih h.2]

theorem firsts_self {α : Type} [DecidableEq α] {l : List α} (h : l.Nodup) : firsts l = l := by
  induction l with
  | nil => rfl
  | cons x l ih =>
    rw [List.nodup_cons] at h
    rw [firsts, ih h.2]
    congr 1
    apply List.filter_eq_self.2
    intro y hy
    simp only [decide_eq_true_eq]
    rintro rfl
    exact h.1 hy

/-- `add`: all lines stay. -/
theorem C37_add_run (junk : List Nat) (d : Db) (w w' : World) (xs : List (List Nat × List Nat)) (h : Adds junk d 0 w xs w')
    (hr : Ready junk.length w d) (hopen : d.master = true ∨ d.session = true)
    (hx : ∀ x ∈ xs, IsLine x.2 ∧ x.2.length < junk.length ∧ IsStamp x.1 ∧ x.1.length + 7 < junk.length) :
    ∃ v v' : View, w.view junk d = some v ∧ w'.view junk d = some v' ∧ v'.texts = v.texts ++ xs.map (·.2) := by
  obtain ⟨v, v', os, h1, h2, -, h3, rfl⟩ := adds_spec h hr hopen hx
  refine ⟨v, _, h1, h2, ?_⟩
  rw [texts_fold _ _ _ h3]
  generalize v.texts = ts
  generalize xs.map (·.2) = ls
  induction ls generalizing ts with
  | nil => simp
  | cons l ls ih => rw [List.foldl_cons, ih]; simp

/-- `ignore`: of equal lines the first stays, where it is.  There are no duplicates if there were none before. -/
theorem C37_ignore_run (junk : List Nat) (d : Db) (w w' : World) (xs : List (List Nat × List Nat)) (h : Adds junk d 1 w xs w')
    (hr : Ready junk.length w d) (hopen : d.master = true ∨ d.session = true)
    (hx : ∀ x ∈ xs, IsLine x.2 ∧ x.2.length < junk.length ∧ IsStamp x.1 ∧ x.1.length + 7 < junk.length) :
    ∃ v v' : View, w.view junk d = some v ∧ w'.view junk d = some v' ∧ (v.texts.Nodup → v'.texts = firsts (v.texts ++ xs.map (·.2)) ∧ v'.texts.Nodup) := by
  obtain ⟨v, v', os, h1, h2, -, h3, rfl⟩ := adds_spec h hr hopen hx
  refine ⟨v, _, h1, h2, ?_⟩
  intro hnd
  have : ∀ (ls ts : List (List Nat)), ts.Nodup → ls.foldl (fun ts line => if 1 = 1 then (if line ∈ ts then ts else ts ++ [line])
      else if 1 = 2 then (ts.filter fun t => decide (t ≠ line)) ++ [line] else ts ++ [line]) ts = firsts (ts ++ ls) := by
    intro ls ts0 hnd
    have hgen : ∀ (ls us : List (List Nat)), ls.foldl (fun ts line => if 1 = 1 then (if line ∈ ts then ts else ts ++ [line])
      else if 1 = 2 then (ts.filter fun t => decide (t ≠ line)) ++ [line] else ts ++ [line]) (firsts us) = firsts (us ++ ls) := by
      intro ls
      induction ls with
      | nil => simp
      | cons l ls ih =>
        intro us
        rw [List.foldl_cons, if_pos rfl]
        have : (if l ∈ firsts us then firsts us else firsts us ++ [l]) = firsts (us ++ [l]) := by
          rw [firsts_snoc]; simp [firsts_mem]
        rw [this, ih]; simp
    have := hgen ls ts0
    rwa [firsts_self hnd] at this
  rw [texts_fold _ _ _ h3, this _ _ hnd]
  exact ⟨rfl, firsts_nodup _⟩

/-- `erase_prev`: of equal lines the last stays.  There are no duplicates if there were none before. -/
theorem C37_erase_run (junk : List Nat) (d : Db) (w w' : World) (xs : List (List Nat × List Nat)) (h : Adds junk d 2 w xs w')
    (hr : Ready junk.length w d) (hopen : d.master = true ∨ d.session = true)
    (hx : ∀ x ∈ xs, IsLine x.2 ∧ x.2.length < junk.length ∧ IsStamp x.1 ∧ x.1.length + 7 < junk.length) :
    ∃ v v' : View, w.view junk d = some v ∧ w'.view junk d = some v' ∧ (v.texts.Nodup → v'.texts = lasts id (v.texts ++ xs.map (·.2)) ∧ v'.texts.Nodup) := by
  obtain ⟨v, v', os, h1, h2, -, h3, rfl⟩ := adds_spec h hr hopen hx
  refine ⟨v, _, h1, h2, ?_⟩
  intro hnd
  have hgen : ∀ (ls us : List (List Nat)), ls.foldl (fun ts line => if 2 = 1 then (if line ∈ ts then ts else ts ++ [line])
    else if 2 = 2 then (ts.filter fun t => decide (t ≠ line)) ++ [line] else ts ++ [line]) (lasts id us) = lasts id (us ++ ls) := by
    intro ls
    induction ls with
    | nil => simp
    | cons l ls ih =>
      intro us
      rw [List.foldl_cons, if_neg (by decide), if_pos rfl, ← lasts_snoc, ih]; simp
  have := hgen (xs.map (·.2)) v.texts
  rw [lasts_self hnd] at this
  rw [texts_fold _ _ _ h3, this]
  exact ⟨rfl, lasts_nodup _⟩

/-! C32 -/

/-- Removing an entry that is seen: it disappears, and the others stay as they are.  The files of other sessions do not
change. -/
theorem C32_remove (junk : List Nat) (w : World) (d : Db) (v : View) (master guard : Bool) (o : Nat) (text : List Nat)
    (hr : Ready junk.length w d) (hv : w.view junk d = some v) (hin : (master, o, text) ∈ v)
    (hg : guard = true → master = true → extractCtag 51 w.master = some d.ctag)
    (hsm : ∀ r, ((w.removeId d master o guard).1.sess d.id).removals = some r → r.length ≤ 2 ^ 29 - 1) :
    (w.removeId d master o guard).2 = true ∧ Ready junk.length (w.removeId d master o guard).1 d ∧
      (w.removeId d master o guard).1.view junk d = some (v.filter fun x => decide (x ≠ (master, o, text))) ∧
      (∀ i, i ≠ d.id → (w.removeId d master o guard).1.sess i = w.sess i) ∧
      -- and again
      ((∀ r, (((w.removeId d master o guard).1.removeId d master o false).1.sess d.id).removals = some r → r.length ≤ 2 ^ 29 - 1) →
        ((w.removeId d master o guard).1.removeId d master o false).1.view junk d = some (v.filter fun x => decide (x ≠ (master, o, text)))) := by
  obtain ⟨vm, vs, hm, hs⟩ := hr.shows
  rw [view_shows hm hs] at hv
  cases hv
  have huniq : ∀ {b : Option Bank} {l : List (Nat × List Nat)} {x y : Nat × List Nat}, Shows junk.length b l → x ∈ l → y ∈ l → x.1 = y.1 → x = y := by
    intro b l x y h hx hy he
    cases b with
    | none => rw [show l = [] from h] at hx; simp at hx
    | some b =>
      obtain ⟨os, -, rfl⟩ := h
      exact visible_offsets hx hy he
  obtain ⟨b, hb, ho⟩ : ∃ b, (if master then w.masterBank d else w.sessionBank d) = some b ∧ o ∈ (linesOf b.lines).map (·.1) := by
    have hmem : ∀ {b : Option Bank} {l : List (Nat × List Nat)}, Shows junk.length b l → (o, text) ∈ l → ∃ b', b = some b' ∧ o ∈ (linesOf b'.lines).map (·.1) := by
      intro b l h hx
      cases b with
      | none => rw [show l = [] from h] at hx; simp at hx
      | some b =>
        obtain ⟨os, -, rfl⟩ := h
        exact ⟨b, rfl, List.mem_map.2 ⟨_, (List.mem_filter.1 hx).1, rfl⟩⟩
    rw [joined, List.mem_append, List.mem_map, List.mem_map] at hin
    rcases hin with ⟨x, hx, he⟩ | ⟨x, hx, he⟩
    · simp only [Prod.mk.injEq] at he
      obtain ⟨rfl, rfl⟩ := he
      obtain ⟨b', h1, h2⟩ := hmem hm hx
      exact ⟨b', by simpa using h1, h2⟩
    · simp only [Prod.mk.injEq] at he
      obtain ⟨rfl, rfl⟩ := he
      obtain ⟨b', h1, h2⟩ := hmem hs hx
      exact ⟨b', by simpa using h1, h2⟩
  have hg' : guard = true → master = true → extractCtag 51 b.lines = some d.ctag := by
    intro h1 h2
    rw [h2, if_pos rfl] at hb
    rw [(masterBank_facts hb).2.2.1]
    exact hg h1 h2
  obtain ⟨vm', vs', g1, g2, g3, g4, g5, b', hb', ho'⟩ := removeId_shows hm hs hb ho hg' hsm
  have hfil : ((joined vm vs).filter fun x => decide ((x.1, x.2.1) ≠ (master, o))) = (joined vm vs).filter fun x => decide (x ≠ (master, o, text)) := by
    apply List.filter_congr
    intro x hx
    have : (x.1, x.2.1) = (master, o) ↔ x = (master, o, text) := by
      constructor
      · intro h
        obtain ⟨m, o1, t1⟩ := x
        simp only [Prod.mk.injEq] at h
        obtain ⟨rfl, rfl⟩ := h
        rw [joined, List.mem_append, List.mem_map, List.mem_map] at hin hx
        rcases hin with ⟨y, hy, he⟩ | ⟨y, hy, he⟩ <;> rcases hx with ⟨z, hz, he'⟩ | ⟨z, hz, he'⟩ <;> simp only [Prod.mk.injEq] at he he'
        · rw [← he'.2, ← he.2, huniq hm hy hz (by rw [he.2, he'.2])]
        · exact absurd (he.1.trans he'.1.symm) (by simp)
        · exact absurd (he.1.trans he'.1.symm) (by simp)
        · rw [← he'.2, ← he.2, huniq hs hy hz (by rw [he.2, he'.2])]
      · rintro rfl; rfl
    simp only [ne_eq, this]
  refine ⟨g4, shows_ready g1 g2 hr.removals, ?_, g5, ?_⟩
  · rw [view_shows g1 g2, g3, hfil]
  · intro hsm2
    obtain ⟨vm2, vs2, k1, k2, k3, -⟩ := removeId_shows g1 g2 hb' ho' (by simp) hsm2
    rw [view_shows k1 k2, k3, g3, List.filter_filter]
    simp only [Bool.and_self]
    rw [hfil]

/-! Examples -/

/-- The master file has `|CTAG_1`, `a` and `b`, session 7 has `c` and its removals have `|CTAG_1`. -/
def world1 : World := ⟨tag1 ++ [10, 97, 10, 98, 10], fun i => if i = 7 then ⟨true, some [99, 10], some (tag1 ++ [10])⟩ else {}⟩

def db1 : Db := ⟨7, true, true, true, tag1⟩

theorem tag1_tag : IsTag tag1 := ⟨⟨[49], rfl⟩, by decide, by decide⟩

theorem world1_ready : Ready (List.replicate 20 0).length world1 db1 := by
  have hfit : ∀ f : List Nat, f.length < 20 → Fits 20 f := by
    intro f hf w hw _
    have := hw.length_le
    omega
  rw [List.length_replicate]
  refine ⟨?_, ?_, fun _ => rfl⟩
  · intro b hb
    have : b = ⟨tag1 ++ [10, 97, 10, 98, 10], some (tag1 ++ [10])⟩ := (Option.some.inj hb).symm
    subst this
    refine ⟨[], ⟨⟨?_, hfit _ (by decide), by decide⟩, fun h => by simp at h, ?_⟩⟩
    · intro c h
      simp [tag1] at h
      simp [IsBreak, ← h]
    · intro r hr
      cases hr
      exact ⟨by decide, tag1, [97, 10, 98, 10], tag1_tag, rfl, [], by simp, rfl, by simp⟩
  · intro b hb
    have : b = ⟨[99, 10], none⟩ := (Option.some.inj hb).symm
    subst this
    refine ⟨⟨?_, hfit _ (by decide), by decide⟩, fun _ => rfl, fun r hr => by simp at hr⟩
    intro c h
    simp at h
    simp [IsBreak, ← h]

/-- The three modes: adding `a` and then `d`. -/
example : (world1.view (List.replicate 20 0) db1) = some [(true, 8, [97]), (true, 10, [98]), (false, 0, [99])] ∧
    ((world1.add (List.replicate 20 0) db1 0 false [] [97]).bind fun x => x.1.view (List.replicate 20 0) db1) =
      some [(true, 8, [97]), (true, 10, [98]), (false, 0, [99]), (false, 2, [97])] ∧
    ((world1.add (List.replicate 20 0) db1 1 false [] [97]).bind fun x => x.1.view (List.replicate 20 0) db1) =
      some [(true, 8, [97]), (true, 10, [98]), (false, 0, [99])] ∧
    ((world1.add (List.replicate 20 0) db1 2 false [] [97]).bind fun x => x.1.view (List.replicate 20 0) db1) =
      some [(true, 10, [98]), (false, 0, [99]), (false, 2, [97])] ∧
    ((world1.add (List.replicate 20 0) db1 2 false [53] [99]).bind fun x => x.1.view (List.replicate 20 0) db1) =
      some [(true, 8, [97]), (true, 10, [98]), (false, 11, [99])] := by
  refine ⟨?_, ?_, ?_, ?_, ?_⟩ <;> decide +kernel

/-- Removing `b` of the master file and `c` of the session. -/
example : (world1.removeId db1 true 10 true).1.view (List.replicate 20 0) db1 = some [(true, 8, [97]), (false, 0, [99])] ∧
    (world1.removeId db1 true 10 true).1.master = world1.master ∧
    (world1.removeId db1 false 0 true).1.view (List.replicate 20 0) db1 = some [(true, 8, [97]), (true, 10, [98])] := by
  refine ⟨?_, ?_, ?_⟩ <;> decide +kernel

/-! What happens if the conditions do not hold. -/

/-- A line that starts with `|` is written but never seen. -/
theorem C31_bar : ∃ w', world1.add (List.replicate 20 0) db1 0 false [] [124, 120] = some (w', true) ∧
    w'.view (List.replicate 20 0) db1 = world1.view (List.replicate 20 0) db1 := by
  refine ⟨_, rfl, ?_⟩
  decide +kernel

/-- Removing the line `x` tab `time=5` gives a timestamp to the line after it. -/
theorem C32_fake_stamp : contents [120, 9, 116, 105, 109, 101, 61, 53, 10, 97, 10] = [([120, 9, 116, 105, 109, 101, 61, 53], []), ([97], [])] ∧
    contents ((⟨[120, 9, 116, 105, 109, 101, 61, 53, 10, 97, 10], none⟩ : Bank).remove true 0).1.lines = [([97], [53])] := by decide +kernel

/-- Removing again is not refused. -/
theorem C32_not_refused : ((world1.removeId db1 true 10 true).1.removeId db1 true 10 true).2 = true ∧
    ((world1.removeId db1 false 0 true).1.removeId db1 false 0 true).2 = true := by decide +kernel

/-- After the session has cleared the history, its file of removals has no tag.  When the line `a` comes into the master file
from elsewhere, adding `a` in the mode `erase_prev` leaves two of them. -/
theorem C37_after_clear :
    (({ (world1.clearMaster db1 tag2).1 with master := addLine (world1.clearMaster db1 tag2).1.master [97] }.add (List.replicate 20 0)
      (world1.clearMaster db1 tag2).2 2 false [] [97]).bind fun x => x.1.view (List.replicate 20 0) (world1.clearMaster db1 tag2).2) =
    some [(true, 8, [97]), (false, 0, [99]), (false, 2, [97])] := by decide +kernel

end Clink.Hist
