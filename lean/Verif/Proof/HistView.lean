import Verif.Proof.HistBank
import Verif.Spec.HistWorld

/-! Removing lines of a bank, and what a session sees. -/

namespace Clink.Hist

open Spec

theorem good_visible {tag body : List Nat} (ht : IsTag tag) (hlen : (tag ++ [10] ++ body).length ≤ 2 ^ 29 - 1) (os : List Nat) :
    visible (good os) (linesOf (tag ++ [10] ++ body)) = visible os (linesOf (tag ++ [10] ++ body)) := by
  have hne : tag ≠ [] := by obtain ⟨x, hx⟩ := ht.1; rw [hx]; simp
  apply List.filter_congr
  intro x hx
  have hb := linesOf_bound hx
  by_cases hd : IsDeleted x.2
  · simp [hd]
  · have h0 : x.1 ≠ 0 := by
      intro h0
      have hs := C30_sorted (tag ++ [10] ++ body)
      rw [linesOf_append (complete_line tag), linesOf, lines_one ht.2.1 hne] at hs hx
      rw [List.singleton_append] at hs hx
      rw [List.pairwise_cons] at hs
      rcases List.mem_cons.1 hx with rfl | hx
      · obtain ⟨r, hr⟩ := ht.1
        exact hd ⟨_, hr⟩
      · have := hs.1 x hx
        omega
    have : x.1 ∈ good os ↔ x.1 ∈ os := by
      simp only [good, List.mem_filter, decide_eq_true_eq]
      constructor
      · exact fun h => h.1
      · refine fun h => ⟨h, by omega, ?_⟩
        have : maxOffset = 2 ^ 29 - 1 := rfl
        omega
    simp [this]

theorem hidden_spec {n : Nat} {b : Bank} {os : List Nat} (h : BankOk n b os) :
    ∃ rs, b.hidden = some rs ∧ visible rs (linesOf b.lines) = visible os (linesOf b.lines) := by
  rw [Bank.hidden]
  cases hr : b.removals with
  | none =>
    refine ⟨[], rfl, ?_⟩
    rw [h.direct hr]
  | some r =>
    obtain ⟨hl, tag, body, ht, hb, hrem⟩ := h.tagged r hr
    rw [forEach_match ht hrem hl (by rw [hb]; exact extract_tag ht _ (by decide))]
    refine ⟨good os, rfl, ?_⟩
    have := h.file.small
    rw [hb] at this ⊢
    exact good_visible ht this os

theorem bankRead_spec {junk : List Nat} {b : Bank} {os : List Nat} (h : BankOk junk.length b os) :
    ∃ es, b.read junk = some es ∧ es.map (fun e => (e.offset, e.text)) = visible os (linesOf b.lines) := by
  obtain ⟨rs, h1, h2⟩ := hidden_spec h
  obtain ⟨es, h3, -, h4⟩ := C30_read junk b.lines rs h.file.small h.file.complete h.file.fits
  refine ⟨es, ?_, h4.trans h2⟩
  rw [Bank.read, h1, Option.bind_some, h3]

theorem visible_offsets {rs : List Nat} {f : List Nat} {x y : Nat × List Nat} (hx : x ∈ visible rs (linesOf f)) (hy : y ∈ visible rs (linesOf f)) (h : x.1 = y.1) : x = y := by
  have hs := C30_sorted f
  have hx' := (List.mem_filter.1 hx).1
  have hy' := (List.mem_filter.1 hy).1
  generalize linesOf f = ls at *
  clear hx hy
  induction ls with
  | nil => simp at hx'
  | cons z ls ih =>
    rw [List.pairwise_cons] at hs
    rcases List.mem_cons.1 hx' with rfl | hx1
    · rcases List.mem_cons.1 hy' with rfl | hy1
      · rfl
      · have := hs.1 y hy1; omega
    · rcases List.mem_cons.1 hy' with rfl | hy1
      · have := hs.1 x hx1; omega
      · exact ih hs.2 hx1 hy1

theorem bankFind_spec {junk : List Nat} {b : Bank} {os : List Nat} (h : BankOk junk.length b os) (line : List Nat) :
    b.find junk line = some (((visible os (linesOf b.lines)).filter fun x => decide (x.2 = line)).map (·.1)) := by
  obtain ⟨es, h1, h2⟩ := bankRead_spec h
  rw [Bank.find, h1, Option.map_some, ← h2, List.filter_map, List.map_map]
  rfl

theorem removals_add {tag os r : List Nat} (h : IsRemovals tag os r) {o : Nat} (ho : o < 10 ^ 10) : IsRemovals tag (os ++ [o]) (r ++ digits o ++ [10]) := by
  obtain ⟨ws, h1, h2, h3⟩ := h
  refine ⟨ws ++ [digits o], ?_, ?_, ?_⟩
  · rw [h1]; simp
  · simp [h2, (digits_value o).2.2]
  · intro w hw
    rcases List.mem_append.1 hw with hw | hw
    · exact h3 w hw
    · rw [List.mem_singleton.1 hw]; exact digits_number ho

/-- What removing lines of a bank does: `gone` are their offsets. -/
structure Removed (n : Nat) (b b' : Bank) (os os' gone : List Nat) : Prop where
  file : IsFile n b'.lines
  length : b'.lines.length = b.lines.length
  offsets : (linesOf b'.lines).map (·.1) = (linesOf b.lines).map (·.1)
  shown : visible os' (linesOf b'.lines) = (visible os (linesOf b.lines)).filter fun x => decide (x.1 ∉ gone)
  direct : b'.removals = none ↔ b.removals = none
  deferred : b.removals ≠ none → b'.lines = b.lines
  os_none : b'.removals = none → os' = []
  grows : ∀ r r', b.removals = some r → b'.removals = some r' → r.length ≤ r'.length
  tagged : ∀ r', b'.removals = some r' → ∃ tag body, IsTag tag ∧ b'.lines = tag ++ [10] ++ body ∧ IsRemovals tag os' r'

theorem Removed.ok {n : Nat} {b b' : Bank} {os os' gone : List Nat} (h : Removed n b b' os os' gone) (hs : ∀ r, b'.removals = some r → r.length ≤ 2 ^ 29 - 1) : BankOk n b' os' :=
  ⟨h.file, h.os_none, fun r hr => ⟨hs r hr, h.tagged r hr⟩⟩

theorem removed_refl {n : Nat} {b : Bank} {os : List Nat} (h : BankOk n b os) : Removed n b b os os [] :=
  ⟨h.file, rfl, rfl, (List.filter_eq_self.2 (by simp)).symm, Iff.rfl, fun _ => rfl, h.direct, fun r r' h1 h2 => by rw [h1] at h2; cases h2; exact Nat.le_refl _, fun r hr => (h.tagged r hr).2⟩

theorem removed_step {n : Nat} {b b' : Bank} {os os' gone : List Nat} (h : Removed n b b' os os' gone) {master : Bool} (hm : b.removals ≠ none → master = true)
    {o : Nat} (ho : o ∈ (linesOf b.lines).map (·.1)) :
    ∃ os'', Removed n b (b'.remove master o).1 os os'' (gone ++ [o]) ∧ (b'.remove master o).2 = true := by
  rw [← h.offsets] at ho
  obtain ⟨⟨o', t⟩, hx, rfl⟩ := List.mem_map.1 ho
  have hb := linesOf_bound hx
  have hsm := h.file.small
  have hmax : maxOffset = 2 ^ 29 - 1 := rfl
  simp only at hb ⊢
  unfold Bank.remove
  rw [if_neg (by omega)]
  have hfil : ∀ l : List (Nat × List Nat), (l.filter fun x => decide (x.1 ∉ gone)).filter (fun x => decide (x.1 ≠ o')) = l.filter fun x => decide (x.1 ∉ gone ++ [o']) := by
    intro l
    rw [List.filter_filter]
    apply List.filter_congr
    intro x _
    simp
    by_cases h1 : x.1 ∈ gone <;> by_cases h2 : x.1 = o' <;> simp [h1, h2]
  cases hr : b'.removals with
  | none =>
    obtain ⟨g1, g2, g3, g4⟩ := linesOf_bar hx
    refine ⟨os', ⟨⟨g3 h.file.complete, g4 n h.file.fits, by simp only [g2]; exact hsm⟩, by simp only [g2]; exact h.length, ?_, ?_, ?_, ?_, ?_, ?_, ?_⟩, rfl⟩
    · simp only [g1, List.map_map]
      rw [← h.offsets]
      apply List.map_congr_left
      intro x _
      simp only [Function.comp, bar]
      split
      · rename_i h; exact h.symm
      · rfl
    · simp only [g1]
      rw [visible_bar, h.shown, hfil]
    · rw [← h.direct, hr]
    · intro hne
      exact absurd (h.direct.1 hr) hne
    · exact fun _ => h.os_none hr
    · intro r r' h1
      have := h.direct.1 hr
      rw [this] at h1; exact absurd h1 (by simp)
    · intro r' h1
      simp only [hr] at h1; exact absurd h1 (by simp)
  | some r =>
    have hmt : master = true := hm fun hn => by rw [h.direct.2 hn] at hr; exact absurd hr (by simp)
    subst hmt
    refine ⟨os' ++ [o'], ⟨h.file, h.length, h.offsets, ?_, ?_, h.deferred, fun hn => by simp at hn, ?_, ?_⟩, rfl⟩
    · simp only
      rw [visible_hide, h.shown, hfil]
    · rw [← h.direct, hr]; simp
    · intro r0 r' h1 h2
      simp only [Option.some.injEq] at h2
      have := h.grows r0 r h1 hr
      rw [← h2]; simp; omega
    · intro r' h2
      simp only [Option.some.injEq] at h2
      obtain ⟨tag, body, g1, g2, g3⟩ := h.tagged r hr
      rw [← h2]
      exact ⟨tag, body, g1, g2, removals_add g3 (by omega)⟩

theorem removed_fold {n : Nat} {b : Bank} {os : List Nat} {master : Bool} (hm : b.removals ≠ none → master = true) (xs : List Nat) :
    ∀ {b' : Bank} {os' gone : List Nat}, Removed n b b' os os' gone → (∀ o ∈ xs, o ∈ (linesOf b.lines).map (·.1)) →
    ∃ os'', Removed n b (xs.foldl (fun b o => (b.remove master o).1) b') os os'' (gone ++ xs) := by
  induction xs with
  | nil => intro b' os' gone h _; exact ⟨os', by simpa using h⟩
  | cons o xs ih =>
    intro b' os' gone h hx
    obtain ⟨os1, h1, -⟩ := removed_step h hm (hx o (by simp))
    obtain ⟨os2, h2⟩ := ih h1 (fun o ho => hx o (by simp [ho]))
    exact ⟨os2, by simpa using h2⟩

theorem removeLine_spec {junk : List Nat} {b : Bank} {os : List Nat} (h : BankOk junk.length b os) {master : Bool} (hm : b.removals ≠ none → master = true) (line : List Nat) :
    ∃ b' os' gone, b.removeLine junk master line = some b' ∧ Removed junk.length b b' os os' gone ∧
      visible os' (linesOf b'.lines) = (visible os (linesOf b.lines)).filter fun x => decide (x.2 ≠ line) := by
  rw [Bank.removeLine, bankFind_spec h, Option.map_some]
  obtain ⟨gone, hg⟩ : ∃ gone, gone = ((visible os (linesOf b.lines)).filter fun x => decide (x.2 = line)).map (·.1) := ⟨_, rfl⟩
  rw [← hg]
  obtain ⟨os', h1⟩ := removed_fold hm gone (removed_refl h) (by
    intro o ho
    rw [hg] at ho
    obtain ⟨x, hx, rfl⟩ := List.mem_map.1 ho
    exact List.mem_map.2 ⟨x, (List.mem_filter.1 (List.mem_filter.1 hx).1).1, rfl⟩)
  refine ⟨_, os', _, rfl, h1, ?_⟩
  rw [h1.shown, List.nil_append]
  apply List.filter_congr
  intro x hx
  have : x.1 ∈ gone ↔ x.2 = line := by
    rw [hg, List.mem_map]
    constructor
    · rintro ⟨y, hy, hxy⟩
      obtain ⟨hy1, hy2⟩ := List.mem_filter.1 hy
      rw [← visible_offsets hy1 hx hxy]
      simpa using hy2
    · intro hl
      exact ⟨x, List.mem_filter.2 ⟨hx, by simpa using hl⟩, rfl⟩
  simp [this]

/-- What a bank shows. -/
def Shows (n : Nat) : Option Bank → List (Nat × List Nat) → Prop
  | none, v => v = []
  | some b, v => ∃ os, BankOk n b os ∧ v = visible os (linesOf b.lines)

theorem Spec.Ready.shows {n : Nat} {w : World} {d : Db} (h : Ready n w d) : ∃ vm vs, Shows n (w.masterBank d) vm ∧ Shows n (w.sessionBank d) vs := by
  have h1 := h.master
  have h2 := h.session
  cases hm : w.masterBank d with
  | none =>
    cases hs : w.sessionBank d with
    | none => exact ⟨[], [], rfl, rfl⟩
    | some b => exact ⟨[], _, rfl, _, h2 b hs, rfl⟩
  | some b =>
    obtain ⟨os, hb⟩ := h1 b hm
    cases hs : w.sessionBank d with
    | none => exact ⟨_, [], ⟨os, hb, rfl⟩, rfl⟩
    | some b' => exact ⟨_, _, ⟨os, hb, rfl⟩, _, h2 b' hs, rfl⟩

/-- A view from the two banks. -/
def joined (vm vs : List (Nat × List Nat)) : View := vm.map (fun x => (true, x)) ++ vs.map (fun x => (false, x))

def readOpt (junk : List Nat) : Option Bank → Option (List Entry)
  | none => some []
  | some b => b.read junk

theorem readOpt_spec {junk : List Nat} {b : Option Bank} {v : List (Nat × List Nat)} (h : Shows junk.length b v) :
    ∃ es, readOpt junk b = some es ∧ es.map (fun e => (e.offset, e.text)) = v := by
  cases b with
  | none => exact ⟨[], rfl, h.symm⟩
  | some b =>
    obtain ⟨os, h1, rfl⟩ := h
    exact bankRead_spec h1

theorem view_shows {junk : List Nat} {w : World} {d : Db} {vm vs : List (Nat × List Nat)} (hm : Shows junk.length (w.masterBank d) vm) (hs : Shows junk.length (w.sessionBank d) vs) :
    w.view junk d = some (joined vm vs) := by
  have he : w.view junk d = (readOpt junk (w.masterBank d)).bind fun m => (readOpt junk (w.sessionBank d)).bind fun s =>
      some (m.map (fun e => (true, e.offset, e.text)) ++ s.map (fun e => (false, e.offset, e.text))) := by
    unfold World.view
    cases w.masterBank d <;> cases w.sessionBank d <;> rfl
  obtain ⟨m, h1, rfl⟩ := readOpt_spec hm
  obtain ⟨s, h2, rfl⟩ := readOpt_spec hs
  rw [he, h1, h2]
  simp [joined, Function.comp_def]

def findOpt (junk line : List Nat) : Option Bank → Option (List Nat)
  | none => some []
  | some b => b.find junk line

theorem findOpt_spec {junk : List Nat} {b : Option Bank} {v : List (Nat × List Nat)} (h : Shows junk.length b v) (line : List Nat) :
    findOpt junk line b = some ((v.filter fun x => decide (x.2 = line)).map (·.1)) := by
  cases b with
  | none => rw [show v = [] from h]; rfl
  | some b =>
    obtain ⟨os, h1, rfl⟩ := h
    exact bankFind_spec h1 line

theorem find_shows {junk : List Nat} {w : World} {d : Db} {vm vs : List (Nat × List Nat)} (hm : Shows junk.length (w.masterBank d) vm) (hs : Shows junk.length (w.sessionBank d) vs) (line : List Nat) :
    w.find junk d line = some (decide (line ∈ (joined vm vs).texts)) := by
  have he : w.find junk d line = (findOpt junk line (w.masterBank d)).bind fun m => (findOpt junk line (w.sessionBank d)).bind fun s =>
      some (!m.isEmpty || !s.isEmpty) := by
    unfold World.find
    cases w.masterBank d <;> cases w.sessionBank d <;> rfl
  rw [he, findOpt_spec hm, findOpt_spec hs]
  have hx : ∀ v : List (Nat × List Nat), (!((v.filter fun x => decide (x.2 = line)).map (·.1)).isEmpty) = decide (line ∈ v.map (·.2)) := by
    intro v
    induction v with
    | nil => rfl
    | cons x v ih =>
      rw [List.filter_cons, List.map_cons]
      by_cases h : x.2 = line
      · simp [h]
      · have : line ≠ x.2 := fun e => h e.symm
        simp only [h, decide_false, Bool.false_eq_true, if_false, ih, List.mem_cons, this, false_or]
  simp only [Option.bind_some, hx]
  rw [View.texts, joined, List.map_append, List.map_map, List.map_map]
  simp only [Function.comp_def, List.mem_append, Bool.decide_or]

/-- Writing a line, with or without a timestamp. -/
def put (stamp line f : List Nat) : List Nat := addLine (if stamp = [] then f else addLine f (timePrefix ++ stamp)) line

theorem put_spec {n : Nat} {stamp line f : List Nat} (hf : IsFile n f) (hl : IsLine line) (hln : line.length < n) (hs : IsStamp stamp) (hsn : stamp.length + 7 < n)
    (hsm : (put stamp line f).length ≤ 2 ^ 29 - 1) :
    IsFile n (put stamp line f) ∧ ∃ o, f.length ≤ o ∧ visible [] (linesOf (put stamp line f)) = visible [] (linesOf f) ++ [(o, line)] := by
  have hv : ∀ (ls : List (Nat × List Nat)) o, visible [] (ls ++ [(o, line)]) = visible [] ls ++ [(o, line)] := by
    intro ls o
    rw [visible, List.filter_append]
    congr 1
    simp [hl.2.2]
  by_cases h : stamp = []
  · rw [put, if_pos h] at hsm ⊢
    refine ⟨isFile_add hf hln hsm, f.length, Nat.le_refl _, ?_⟩
    rw [linesOf_add hf.complete hl.2.1 hl.1, hv]
  · rw [put, if_neg h] at hsm ⊢
    have htl : (timePrefix ++ stamp).length = stamp.length + 7 := by simp [timePrefix]
    have hf1 : IsFile n (addLine f (timePrefix ++ stamp)) := isFile_add hf (by omega) (by simp [addLine] at hsm ⊢; omega)
    refine ⟨isFile_add hf1 hln hsm, (addLine f (timePrefix ++ stamp)).length, by simp [addLine], ?_⟩
    have hb : ∀ c ∈ timePrefix ++ stamp, ¬ IsBreak c := by
      intro c hc
      rcases List.mem_append.1 hc with hc | hc
      · have : ∀ c ∈ timePrefix, ¬ IsBreak c := by decide
        exact this c hc
      · exact hs c hc
    rw [linesOf_add hf1.complete hl.2.1 hl.1, hv, linesOf_add hf.complete hb (by simp [timePrefix])]
    congr 1
    rw [visible, List.filter_append]
    have hd : IsDeleted (timePrefix ++ stamp) := ⟨_, rfl⟩
    simp [hd, visible]

theorem append_shows {n : Nat} {w : World} {d : Db} {vm vs : List (Nat × List Nat)} {stamp line : List Nat} (hm : Shows n (w.masterBank d) vm) (hs : Shows n (w.sessionBank d) vs)
    (hr : d.removals = true → d.session = true)
    (hopen : d.master = true ∨ d.session = true) (hl : IsLine line) (hln : line.length < n) (hst : IsStamp stamp) (hsn : stamp.length + 7 < n)
    (hsm : Small (w.append d stamp line) d) :
    ∃ vm' vs' o, Shows n ((w.append d stamp line).masterBank d) vm' ∧ Shows n ((w.append d stamp line).sessionBank d) vs' ∧
      joined vm' vs' = joined vm vs ++ [(!d.session, o, line)] ∧
      (∀ i, i ≠ d.id → (w.append d stamp line).sess i = w.sess i) ∧ (d.session = true → (w.append d stamp line).master = w.master) ∧
      ((w.append d stamp line).sess d.id).removals = (w.sess d.id).removals := by
  cases hss : d.session with
  | false =>
    have hmm : d.master = true := by rcases hopen with h | h; exact h; rw [hss] at h; simp at h
    have hrf : d.removals = false := by
      cases h : d.removals
      · rfl
      · rw [hr h] at hss; simp at hss
    have hap : w.append d stamp line = { w with master := put stamp line w.master } := by
      simp [World.append, hmm, hss, put]
    have hvs : vs = [] := by
      have : w.sessionBank d = none := by simp [World.sessionBank, hss]
      rw [this] at hs; exact hs
    have hmb : w.masterBank d = some ⟨w.master, none⟩ := by simp [World.masterBank, hmm, hrf]
    rw [hmb] at hm
    obtain ⟨os, hb, rfl⟩ := hm
    have hos : os = [] := hb.direct rfl
    subst hos
    have hsmm := hsm.master
    rw [hap] at hsmm ⊢
    obtain ⟨g1, o, -, g2⟩ := put_spec hb.file hl hln hst hsn hsmm
    refine ⟨visible [] (linesOf (put stamp line w.master)), [], o, ?_, ?_, ?_, fun _ _ => rfl, by simp, rfl⟩
    · simp only [World.masterBank, hmm, hrf]
      exact ⟨[], ⟨g1, fun _ => rfl, by intro r hr; simp at hr⟩, rfl⟩
    · simp [World.sessionBank, hss, Shows]
    · rw [g2, hvs]; simp [joined]
  | true =>
    have hsb : w.sessionBank d = some ⟨(w.sess d.id).lines.getD [], none⟩ := by simp [World.sessionBank, hss]
    have hap : w.append d stamp line = w.setSess d.id { w.sess d.id with lines := some (put stamp line ((w.sess d.id).lines.getD [])) } := by
      unfold World.append
      rw [if_neg (by simp [hss]), hsb]
      rfl
    rw [hsb] at hs
    obtain ⟨os, hb, rfl⟩ := hs
    have hos : os = [] := hb.direct rfl
    subst hos
    have hsml := hsm.lines (put stamp line ((w.sess d.id).lines.getD [])) (by rw [hap]; simp [World.setSess])
    rw [hap]
    obtain ⟨g1, o, -, g2⟩ := put_spec hb.file hl hln hst hsn hsml
    refine ⟨vm, visible [] (linesOf (put stamp line ((w.sess d.id).lines.getD []))), o, ?_, ?_, ?_, ?_, fun _ => rfl, by simp [World.setSess]⟩
    · have : (w.setSess d.id { w.sess d.id with lines := some (put stamp line ((w.sess d.id).lines.getD [])) }).masterBank d = w.masterBank d := by
        simp [World.masterBank, World.setSess]
      rw [this]; exact hm
    · simp only [World.sessionBank, hss, World.setSess, if_true, Option.getD_some]
      exact ⟨[], ⟨g1, fun _ => rfl, by intro r hr; simp at hr⟩, rfl⟩
    · rw [g2]; simp [joined]
    · intro i hi; simp [World.setSess, hi]

theorem shows_ready {n : Nat} {w : World} {d : Db} {vm vs : List (Nat × List Nat)} (hm : Shows n (w.masterBank d) vm) (hs : Shows n (w.sessionBank d) vs)
    (hr : d.removals = true → d.session = true) : Ready n w d := by
  refine ⟨?_, ?_, hr⟩
  · intro b hb
    rw [hb] at hm
    obtain ⟨os, h, -⟩ := hm
    exact ⟨os, h⟩
  · intro b hb
    rw [hb] at hs
    obtain ⟨os, h, -⟩ := hs
    have : b.removals = none := by
      rw [World.sessionBank] at hb
      split at hb
      · cases hb; rfl
      · simp at hb
    rw [h.direct this] at h
    exact h

theorem putMaster_bank {w : World} {d : Db} {b : Bank} (hm : d.master = true) (h : d.removals = false → b.removals = none) :
    (w.putMaster d b).masterBank d = some b ∧ (w.putMaster d b).sessionBank d = w.sessionBank d ∧
      (∀ i, i ≠ d.id → (w.putMaster d b).sess i = w.sess i) ∧ ((w.putMaster d b).sess d.id).lines = (w.sess d.id).lines ∧ (w.putMaster d b).master = b.lines := by
  cases hr : d.removals with
  | false =>
    have hb := h hr
    refine ⟨?_, ?_, ?_, ?_, ?_⟩ <;> simp [World.putMaster, World.masterBank, World.sessionBank, hr, hm]
    rw [← hb]
  | true =>
    refine ⟨?_, ?_, ?_, ?_, ?_⟩
    · simp [World.putMaster, World.masterBank, hr, hm, World.setSess]
    · simp [World.putMaster, World.sessionBank, hr, World.setSess]
    · intro i hi; simp [World.putMaster, hr, World.setSess, hi]
    · simp [World.putMaster, hr, World.setSess]
    · simp [World.putMaster, hr, World.setSess]

theorem putSession_bank {w : World} {d : Db} {b : Bank} (hs : d.session = true) (h : b.removals = none) :
    (w.putSession d b).sessionBank d = some b ∧ (w.putSession d b).masterBank d = w.masterBank d ∧
      (∀ i, i ≠ d.id → (w.putSession d b).sess i = w.sess i) ∧ ((w.putSession d b).sess d.id).removals = (w.sess d.id).removals ∧ (w.putSession d b).master = w.master := by
  refine ⟨?_, ?_, ?_, ?_, ?_⟩
  · simp [World.putSession, World.sessionBank, hs, World.setSess]
    rw [← h]
  · simp [World.putSession, World.masterBank, World.setSess]
  · intro i hi; simp [World.putSession, World.setSess, hi]
  · simp [World.putSession, World.setSess]
  · simp [World.putSession, World.setSess]

theorem masterBank_facts {w : World} {d : Db} {b : Bank} (h : w.masterBank d = some b) :
    d.master = true ∧ (d.removals = false → b.removals = none) ∧ b.lines = w.master ∧ (b.removals ≠ none → d.removals = true ∧ b.removals = (w.sess d.id).removals) := by
  rw [World.masterBank] at h
  split at h
  · rename_i hm
    cases h
    refine ⟨hm, fun hr => by simp [hr], rfl, ?_⟩
    intro hne
    cases hr : d.removals
    · simp [hr] at hne
    · simp
  · simp at h

theorem sessionBank_facts {w : World} {d : Db} {b : Bank} (h : w.sessionBank d = some b) :
    d.session = true ∧ b.removals = none ∧ b.lines = (w.sess d.id).lines.getD [] := by
  rw [World.sessionBank] at h
  split at h
  · rename_i hm
    cases h
    exact ⟨hm, rfl, rfl⟩
  · simp at h

theorem removeMaster_shows {junk : List Nat} {w : World} {d : Db} {vm : List (Nat × List Nat)} (hm : Shows junk.length (w.masterBank d) vm) (line : List Nat) :
    ∃ w', w.removeMaster junk d line = some w' ∧
      ((∀ r, (w'.sess d.id).removals = some r → r.length ≤ 2 ^ 29 - 1) → Shows junk.length (w'.masterBank d) (vm.filter fun x => decide (x.2 ≠ line))) ∧
      w'.sessionBank d = w.sessionBank d ∧ (∀ i, i ≠ d.id → w'.sess i = w.sess i) ∧ (w'.sess d.id).lines = (w.sess d.id).lines ∧
      (d.removals = true → (w.sess d.id).removals ≠ none → w'.master = w.master) := by
  unfold World.removeMaster
  cases hb : w.masterBank d with
  | none =>
    rw [hb] at hm
    have hvm : vm = [] := hm
    refine ⟨w, rfl, fun _ => ?_, rfl, fun _ _ => rfl, rfl, fun _ _ => rfl⟩
    rw [hb, hvm]; rfl
  | some b =>
    rw [hb] at hm
    obtain ⟨os, hok, rfl⟩ := hm
    obtain ⟨f1, f2, f3, f4⟩ := masterBank_facts hb
    obtain ⟨b', os', gone, h1, h2, h3⟩ := removeLine_spec hok (fun _ => rfl) line
    have hb' : d.removals = false → b'.removals = none := fun hr => h2.direct.2 (f2 hr)
    obtain ⟨p1, p2, p3, p4, p5⟩ := putMaster_bank (w := w) f1 hb'
    simp only [h1, Option.map_some]
    refine ⟨_, rfl, ?_, p2, p3, p4, ?_⟩
    · intro hsm
      rw [p1]
      refine ⟨os', h2.ok ?_, h3.symm⟩
      intro r hr
      have hdr : d.removals = true := by
        cases h : d.removals
        · rw [hb' h] at hr; simp at hr
        · rfl
      apply hsm r
      simp [World.putMaster, hdr, World.setSess, hr]
    · intro hdr hne
      rw [p5, ← f3]
      apply h2.deferred
      intro hn
      have : b = ⟨w.master, (w.sess d.id).removals⟩ := by
        rw [World.masterBank, if_pos f1, if_pos hdr] at hb
        exact (Option.some.inj hb).symm
      rw [this] at hn
      exact hne hn

theorem removeSession_shows {junk : List Nat} {w : World} {d : Db} {vs : List (Nat × List Nat)} (hm : Shows junk.length (w.sessionBank d) vs) (line : List Nat) :
    ∃ w', w.removeSession junk d line = some w' ∧
      Shows junk.length (w'.sessionBank d) (vs.filter fun x => decide (x.2 ≠ line)) ∧
      w'.masterBank d = w.masterBank d ∧ (∀ i, i ≠ d.id → w'.sess i = w.sess i) ∧ (w'.sess d.id).removals = (w.sess d.id).removals ∧ w'.master = w.master := by
  unfold World.removeSession
  cases hb : w.sessionBank d with
  | none =>
    rw [hb] at hm
    have hvm : vs = [] := hm
    refine ⟨w, rfl, ?_, rfl, fun _ _ => rfl, rfl, rfl⟩
    rw [hb, hvm]; rfl
  | some b =>
    rw [hb] at hm
    obtain ⟨os, hok, rfl⟩ := hm
    obtain ⟨f1, f2, f3⟩ := sessionBank_facts hb
    obtain ⟨b', os', gone, h1, h2, h3⟩ := removeLine_spec hok (master := false) (fun h => absurd f2 h) line
    have hb' : b'.removals = none := h2.direct.2 f2
    obtain ⟨p1, p2, p3, p4, p5⟩ := putSession_bank (w := w) f1 hb'
    simp only [h1, Option.map_some]
    refine ⟨_, rfl, ?_, p2, p3, p4, p5⟩
    rw [p1]
    refine ⟨os', h2.ok ?_, h3.symm⟩
    intro r hr
    rw [hb'] at hr; simp at hr

/-- `removeId` of a line of a bank. -/
theorem removeId_shows {n : Nat} {w : World} {d : Db} {vm vs : List (Nat × List Nat)} (hm : Shows n (w.masterBank d) vm) (hs : Shows n (w.sessionBank d) vs)
    {master guard : Bool} {o : Nat} {b : Bank} (hb : (if master then w.masterBank d else w.sessionBank d) = some b) (ho : o ∈ (linesOf b.lines).map (·.1))
    (hg : guard = true → master = true → extractCtag 51 b.lines = some d.ctag)
    (hsm : ∀ r, ((w.removeId d master o guard).1.sess d.id).removals = some r → r.length ≤ 2 ^ 29 - 1) :
    ∃ vm' vs', Shows n ((w.removeId d master o guard).1.masterBank d) vm' ∧ Shows n ((w.removeId d master o guard).1.sessionBank d) vs' ∧
      joined vm' vs' = ((joined vm vs).filter fun x => decide ((x.1, x.2.1) ≠ (master, o))) ∧ (w.removeId d master o guard).2 = true ∧
      (∀ i, i ≠ d.id → (w.removeId d master o guard).1.sess i = w.sess i) ∧
      (∃ b', (if master then (w.removeId d master o guard).1.masterBank d else (w.removeId d master o guard).1.sessionBank d) = some b' ∧ o ∈ (linesOf b'.lines).map (·.1)) := by
  have hun : w.removeId d master o guard = (if master then w.putMaster d (b.remove master o).1 else w.putSession d (b.remove master o).1, (b.remove master o).2) := by
    unfold World.removeId
    rw [hb]
    simp only
    rw [if_neg]
    intro h
    simp only [Bool.and_eq_true, decide_eq_true_eq] at h
    exact h.2 (hg h.1.1 h.1.2)
  have hj : ∀ (l : List (Nat × List Nat)) (m : Bool), (l.map fun x => (m, x)).filter (fun x => decide ((x.1, x.2.1) ≠ (master, o))) =
      (l.filter fun x => decide (m = master → x.1 ≠ o)).map fun x => (m, x) := by
    intro l m
    rw [List.filter_map]
    congr 1
    apply List.filter_congr
    intro x _
    simp
  have hall : ∀ (l : List (Nat × List Nat)) (m : Bool), m ≠ master → (l.filter fun x => decide (m = master → x.1 ≠ o)) = l := by
    intro l m hm
    apply List.filter_eq_self.2
    intro x _
    simp [hm]
  have hone : ∀ (l : List (Nat × List Nat)) (m : Bool), m = master → (l.filter fun x => decide (m = master → x.1 ≠ o)) = l.filter fun x => decide (x.1 ∉ [] ++ [o]) := by
    intro l m hm
    apply List.filter_congr
    intro x _
    simp [hm]
  cases master with
  | true =>
    simp only [if_true] at hb hun
    rw [hb] at hm
    obtain ⟨os, hok, rfl⟩ := hm
    obtain ⟨f1, f2, f3, f4⟩ := masterBank_facts hb
    obtain ⟨os', h2, h3⟩ := removed_step (removed_refl hok) (master := true) (fun _ => rfl) ho
    have hb' : d.removals = false → (b.remove true o).1.removals = none := fun hr => h2.direct.2 (f2 hr)
    obtain ⟨p1, p2, p3, p4, p5⟩ := putMaster_bank (w := w) f1 hb'
    rw [hun] at hsm ⊢
    simp only at hsm ⊢
    rw [p1, p2]
    refine ⟨_, vs, ⟨os', h2.ok ?_, rfl⟩, hs, ?_, h3, p3, (b.remove true o).1, by simp, by rw [h2.offsets]; exact ho⟩
    · intro r hr
      have hdr : d.removals = true := by
        cases h : d.removals
        · rw [hb' h] at hr; simp at hr
        · rfl
      apply hsm r
      simp [World.putMaster, hdr, World.setSess, hr]
    · rw [joined, joined, List.filter_append, hj, hj, hone _ _ rfl, hall _ _ (by simp), h2.shown]
  | false =>
    simp only [Bool.false_eq_true, if_false] at hb hun
    rw [hb] at hs
    obtain ⟨os, hok, rfl⟩ := hs
    obtain ⟨f1, f2, f3⟩ := sessionBank_facts hb
    obtain ⟨os', h2, h3⟩ := removed_step (removed_refl hok) (master := false) (fun h => absurd f2 h) ho
    have hb' : (b.remove false o).1.removals = none := h2.direct.2 f2
    obtain ⟨p1, p2, p3, p4, p5⟩ := putSession_bank (w := w) f1 hb'
    rw [hun]
    simp only
    rw [p1, p2]
    refine ⟨vm, _, hm, ⟨os', h2.ok ?_, rfl⟩, ?_, h3, p3, (b.remove false o).1, by simp, by rw [h2.offsets]; exact ho⟩
    · intro r hr
      rw [hb'] at hr; simp at hr
    · rw [joined, joined, List.filter_append, hj, hj, hone _ _ rfl, hall _ _ (by simp), h2.shown]

end Clink.Hist
