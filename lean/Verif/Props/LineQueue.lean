import Verif.Proof.LineQueue

/-!
The queue of input lines (C13).
-/

namespace Clink.LineQueue

open Utf (specUtf8 specUtf16 IsText toUtf8 toUtf16)
open Doskey (Lookup flat_append flat_cons flat_nil spec_ascii flat_ne_nil)
open Doskey.Spec (flat)
open Spec

/-- An operation of the program. -/
def apply (lookup : Lookup) (enh : Bool) (q : List Line) : Op → Option (Out × List Line)
  | .back cs => some (.nothing, enqueueBack q (flat cs))
  | .front ls => some (.nothing, enqueueFront q (ls.map fun l =>
      { text := flat l.1, flags := { hide := l.2.1, show_ := l.2.2.1, nodoskey := l.2.2.2 } }))
  | .line => (dequeueLine lookup enh q []).map fun r =>
      (match r.1 with
        | none => .nothing
        | some t => .line t r.2.1.hide r.2.1.show_ r.2.1.nodoskey r.2.1.edit, r.2.2)
  | .char =>
      let r := dequeueChar q
      some (match r.1 with
        | none => .nothing
        | some (u, n) => .char u n, r.2)

def run (lookup : Lookup) (enh : Bool) (q : List Line) : List Op → Option (List Out × List Line)
  | [] => some ([], q)
  | op :: ops =>
    match apply lookup enh q op with
    | none => none
    | some (o, q) => (run lookup enh q ops).map fun r => (o :: r.1, r.2)

/-- What callers may do: text is well-formed, and lines put in front have a flag that turns off doskey (the only
caller sets `no_doskey`, host.cpp:1372-1381). -/
def Op.Ok : Op → Prop
  | .back cs => ∀ c ∈ cs, IsText c
  | .front ls => ∀ l ∈ ls, (∀ c ∈ l.1, IsText c) ∧ (l.2.1 = true ∨ l.2.2.1 = true ∨ l.2.2.2 = true)
  | _ => True

theorem front_step (q : List Line) (ls : List Line) :
    enqueueFront q ls = ls.map (fun l => { l with text := crlf l.text, flags := { l.flags with edit := false } }) ++ q := by
  unfold enqueueFront
  induction ls generalizing q with
  | nil => rfl
  | cons l ls ih =>
    rw [List.reverse_cons, List.foldl_append, ih]
    simp

theorem strip_text {cs s : List Nat} (h : ∀ c ∈ cs, IsText c) (hs : Stripped cs s) : ∀ c ∈ s ++ [13, 10], IsText c := by
  obtain ⟨e, rfl, -, -⟩ := hs
  intro c hc
  rcases List.mem_append.1 hc with h' | h'
  · exact h c (by simp [h'])
  · simp at h'; rcases h' with rfl | rfl <;> exact ⟨by decide, by decide, by decide⟩

theorem step_refines (lookup : Lookup) (enh : Bool) {q : List Line} {is : List Item} (h : RelQ q is) {op : Op} (hop : Op.Ok op) :
    ∃ out q' is', apply lookup enh q op = some (out, q') ∧ Step is op out is' ∧ RelQ q' is' := by
  cases op with
  | back cs =>
    by_cases hcs : cs = []
    · subst hcs; exact ⟨_, _, _, rfl, .back_empty, by simpa [enqueueBack, flat] using h⟩
    · have hfl := flat_ne_nil hcs
      have hnew : RelQ (q ++ [{ text := flat cs, flags := { show_ := true } }]) (is ++ [⟨cs, true, false, true, false⟩]) :=
        h.snoc (new_rel (f := { show_ := true }) hop hcs rfl (by simp))
      refine ⟨.nothing, enqueueBack q (flat cs), ?_⟩
      rcases h.last with ⟨rfl, rfl⟩ | ⟨q', is', l, i, rfl, rfl, hq, hl⟩
      · refine ⟨_, rfl, .back_new hcs (by simp), ?_⟩
        simpa [enqueueBack, hfl] using hnew
      · by_cases hc : i.complete
        · have hu : unfinished l.text = false := by
            cases hu : unfinished l.text with
            | false => rfl
            | true => exact absurd hc (hl.unfinished.1 hu)
          refine ⟨_, rfl, .back_new hcs ?_, ?_⟩
          · intro j hj; simp at hj; subst hj; exact hc
          · simpa [enqueueBack, hfl, hu] using hnew
        · refine ⟨_, rfl, .back_more hcs hc, ?_⟩
          have := hq.snoc (back_rel hl hop hcs)
          simpa [enqueueBack, hfl, hl.unfinished.2 hc] using this
  | front ls =>
    refine ⟨_, _, ls.map (fun l => ⟨strip l.1 ++ [13, 10], true, l.2.1, l.2.2.1, l.2.2.2⟩) ++ is, rfl, .front (by simp) ?_, ?_⟩
    · intro k l i hl hi
      simp [hl] at hi
      exact ⟨strip l.1, strip_spec _, hi.symm⟩
    · rw [front_step]
      refine RelQ.append ?_ h
      clear h
      induction ls with
      | nil => exact .nil
      | cons l ls ih =>
        obtain ⟨h1, h2⟩ := hop l (by simp)
        refine .cons ?_ (ih fun x hx => hop x (List.mem_cons_of_mem _ hx))
        have hs := strip_spec l.1
        have := new_rel (f := { hide := l.2.1, show_ := l.2.2.1, nodoskey := l.2.2.2 }) (strip_text h1 hs) (by simp) rfl h2
        rw [← crlf_flat (fun c hc => (h1 c hc).2.1) hs] at this
        exact this
  | line =>
    cases h with
    | nil => exact ⟨_, _, _, rfl, .line_empty, .nil⟩
    | @cons l i q is hl hq =>
      have hfl : ¬ (l.cursor = 0 ∧ (if unfinished l.text = true then { l.flags with edit := true } else l.flags).hide = false ∧
          (if unfinished l.text = true then { l.flags with edit := true } else l.flags).show_ = false ∧
          (if unfinished l.text = true then { l.flags with edit := true } else l.flags).nodoskey = false) := by
        have := hl.special
        rw [← hl.hide, ← hl.show_, ← hl.nodoskey] at this
        intro hh
        obtain ⟨-, a, b, c⟩ := hh
        split at a <;> simp_all
      refine ⟨_, _, _, by simp only [apply, dequeueLine]; rw [if_neg hfl]; rfl, ?_, hq⟩
      have hcod := hl.codes
      have ho : (if l.cursor ≠ 0 then [] ++ (toUtf8 none (l.wide.drop l.cursor)).out else l.text) = flat (i.codes.map readable) := by
        split
        · rename_i hc
          obtain ⟨-, -, h3, h4⟩ := hl.part hc
          rw [h3, utf8_codes h4]; rfl
        · rename_i hc
          obtain ⟨-, -, h3, h4⟩ := hl.whole (by simpa using hc)
          rw [h3, readable_text h4]
      have hlt : ∀ c ∈ i.codes.map readable, c < 0x110000 := by
        intro c hc
        obtain ⟨d, hd, rfl⟩ := List.mem_map.1 hc
        have := hcod.lt d hd
        unfold readable
        split <;> omega
      have hs := strip_spec (i.codes.map readable)
      simp only [ho, crlf_flat hlt hs]
      have := Step.line (i := i) (q := is) hs
      have e1 : (if unfinished l.text = true then { l.flags with edit := true } else l.flags).hide = i.hide := by
        split <;> exact hl.hide
      have e2 : (if unfinished l.text = true then { l.flags with edit := true } else l.flags).show_ = i.show_ := by
        split <;> exact hl.show_
      have e3 : (if unfinished l.text = true then { l.flags with edit := true } else l.flags).nodoskey = i.nodoskey := by
        split <;> exact hl.nodoskey
      have e4 : (if unfinished l.text = true then { l.flags with edit := true } else l.flags).edit = decide (¬ i.complete) := by
        have := hl.unfinished
        split
        · rename_i hu; simpa using this.1 hu
        · rename_i hu
          have hc : i.complete := Classical.byContradiction fun hc => hu (this.2 hc)
          rw [hl.edit]; simpa using hc
      rw [e1, e2, e3, e4]
      exact this
  | char =>
    cases h with
    | nil => exact ⟨_, _, _, rfl, .char_empty, .nil⟩
    | @cons l i q is hl hq =>
      -- the units still to be delivered
      have hw : ∃ wide, (if l.cursor = 0 then l.wide ++ (toUtf16 none l.text).out else l.wide) = wide ∧
          l.cursor < wide.length ∧ wide.drop l.cursor = units i.codes := by
        by_cases hc : l.cursor = 0
        · obtain ⟨-, h2, h3, h4⟩ := hl.whole hc
          refine ⟨units i.codes, by rw [if_pos hc, h2, h3, utf16_flat h4]; rfl, ?_, by rw [hc]; rfl⟩
          rw [hc]; exact List.length_pos_iff.2 (units_ne hl.ne)
        · obtain ⟨-, h2, h3, -⟩ := hl.part hc
          exact ⟨l.wide, by rw [if_neg hc], h2, h3⟩
      obtain ⟨wide, hwe, hlt, hdrop⟩ := hw
      have hnl : decide (l.cursor = 0 ∧ l.text ≠ [] ∧ l.text.getLast? = some 10) = decide (i.whole = true ∧ i.codes.getLast? = some 10) := by
        have := hl.last
        by_cases hc : l.cursor = 0
        · simp [hc, (hl.whole hc).1, hl.tne, this]
        · simp [hc, (hl.part hc).1]
      have hcod := hl.codes
      obtain ⟨ci, w, hh, hs, hn⟩ := i
      cases ci with
      | nil => exact absurd rfl hl.ne
      | cons c cs =>
        have hget : wide.getD l.cursor 0 = (units (c :: cs)).headD 0 := by
          rw [← hdrop]; simp [List.getD, List.headD_eq_head?_getD, List.head?_drop]
        have hdrop1 : wide.drop (l.cursor + 1) = (units (c :: cs)).tail := by
          rw [← hdrop, List.tail_drop]
        have happ : apply lookup enh (l :: q) .char = some (.char (wide.getD l.cursor 0) (decide (w = true ∧ (c :: cs).getLast? = some 10)),
            if l.cursor + 1 ≥ wide.length then q else { l with wide := wide, cursor := l.cursor + 1 } :: q) := by
          simp only [apply, dequeueChar, hwe]
          rw [if_neg (by omega), hnl]
        rw [happ]
        refine ⟨.char (wide.getD l.cursor 0) (decide (w = true ∧ (c :: cs).getLast? = some 10)), if l.cursor + 1 ≥ wide.length then q else { l with wide := wide, cursor := l.cursor + 1 } :: q, ?_⟩
        have htl : cs ≠ [] → (c :: cs).getLast? = cs.getLast? := by
          intro h; obtain ⟨x, hx⟩ := last_ex h; rw [List.getLast?_cons, hx]; rfl
        -- the rest of the codes
        have hcs : ∀ d ∈ cs, IsText d := by
          obtain ⟨hd, d, e, ht, rfl | ⟨u, rfl, -, -⟩⟩ := hcod
          · intro x hx; exact ht x (by rw [List.nil_append] at e; rw [← e]; exact List.mem_cons_of_mem _ hx)
          · intro x hx; simp at e; exact ht x (e.2 ▸ hx)
        have hclt := hcod.lt c (by simp)
        by_cases h1 : c < 65536
        · have hu : units (c :: cs) = c :: units cs := by
            simp only [units, List.flatMap_cons, specUtf16]; rw [if_pos h1]; rfl
          rw [hu] at hget hdrop1
          simp at hget hdrop1
          rw [← List.getD_eq_getElem?_getD] at hget
          rw [hget]
          refine ⟨_, rfl, Step.char h1, ?_⟩
          have hlen := congrArg List.length hdrop1
          rw [List.length_drop] at hlen
          by_cases hcs0 : cs = []
          · subst hcs0
            rw [if_pos rfl, if_pos (by simp [units] at hlen; omega)]
            exact hq
          · have := List.length_pos_iff.2 (units_ne hcs0)
            rw [if_neg hcs0, if_neg (by omega)]
            refine .cons ⟨hcs0, hl.tne, ?_, hl.hide, hl.show_, hl.nodoskey, hl.edit, hl.special, fun h => absurd h (by simp), fun _ => ⟨rfl, ?_, hdrop1, codes_text hcs⟩⟩ hq
            · rw [← htl hcs0]; exact hl.last
            · simp only; omega
        · obtain ⟨hi, hhi⟩ : ∃ x, x = 0xD800 + (c - 65536) / 1024 := ⟨_, rfl⟩
          obtain ⟨lo, hlo⟩ : ∃ x, x = 0xDC00 + (c - 65536) % 1024 := ⟨_, rfl⟩
          have hlo1 : 0xDC00 ≤ lo := by omega
          have hlo2 : lo ≤ 0xDFFF := by omega
          have hu : units (c :: cs) = hi :: lo :: units cs := by
            simp only [units, List.flatMap_cons, specUtf16]; rw [if_neg h1, hhi, hlo]; simp only [List.cons_append, List.nil_append]
          have hstep := Step.pair (c := c) (cs := cs) (w := w) (h := hh) (s := hs) (n := hn) (q := is) (by omega)
          rw [← hhi, ← hlo] at hstep
          clear hhi hlo
          rw [hu] at hget hdrop1
          rw [hget]
          refine ⟨_, rfl, hstep, ?_⟩
          have hlen := congrArg List.length hdrop1
          rw [List.length_drop] at hlen
          simp only [List.tail_cons, List.length_cons] at hlen
          rw [if_neg (by omega)]
          have hlow : units (lo :: cs) = lo :: units cs := by
            simp only [units, List.flatMap_cons, specUtf16]; rw [if_pos (by omega)]; simp only [List.cons_append, List.nil_append]
          refine .cons ⟨by simp, hl.tne, ?_, hl.hide, hl.show_, hl.nodoskey, hl.edit, hl.special, fun h => absurd h (by simp), fun _ => ⟨rfl, ?_, ?_, ?_⟩⟩ hq
          · have := hl.last
            simp only at this ⊢
            rw [this]
            cases cs with
            | nil => simp; omega
            | cons d cs => simp
          · simp only; omega
          · simp only; rw [hdrop1, hlow]; rfl
          · exact ⟨[_], cs, rfl, hcs, .inr ⟨_, rfl, hlo1, hlo2⟩⟩

theorem run_refines (lookup : Lookup) (enh : Bool) {q : List Line} {is : List Item} (h : RelQ q is) {ops : List Op}
    (hop : ∀ op ∈ ops, Op.Ok op) :
    ∃ outs q' is', run lookup enh q ops = some (outs, q') ∧ Steps is ops outs is' ∧ RelQ q' is' := by
  induction ops generalizing q is with
  | nil => exact ⟨[], q, is, rfl, .nil, h⟩
  | cons op ops ih =>
    obtain ⟨o, q1, is1, h1, h2, h3⟩ := step_refines lookup enh h (hop op (by simp))
    obtain ⟨os, q2, is2, h4, h5, h6⟩ := ih h3 fun x hx => hop x (List.mem_cons_of_mem _ hx)
    exact ⟨o :: os, q2, is2, by rw [run, h1]; simp [h4], .cons h2 h5, h6⟩

/-- C13.  However the operations are mixed, the queue behaves like a queue of lines of characters. -/
theorem C13_queue (lookup : Lookup) (enh : Bool) {ops : List Op} (hop : ∀ op ∈ ops, Op.Ok op) :
    ∃ outs q' is', run lookup enh [] ops = some (outs, q') ∧ Steps [] ops outs is' ∧ (is' = [] ↔ q' = []) := by
  obtain ⟨outs, q', is', h1, h2, h3⟩ := run_refines lookup enh .nil hop
  refine ⟨outs, q', is', h1, h2, ?_⟩
  cases h3 <;> simp

def pending (is : List Item) : List Nat := is.flatMap fun i => units i.codes

theorem steps_stream {is is' : List Item} {ops : List Op} {outs : List Out} (h : Steps is ops outs is')
    (hf : ∀ op ∈ ops, ∀ ls, op ≠ .front ls) :
    ∃ raws : List (List Nat), raws.length = outs.length ∧ (∀ (k : Nat) (o : Out) (r : List Nat), outs[k]? = some o → raws[k]? = some r → o.Delivers r) ∧
      pending is ++ ops.flatMap Op.given = raws.flatten ++ pending is' := by
  induction h with
  | nil => exact ⟨[], rfl, by simp, by simp⟩
  | @cons q op out q' ops outs q'' hs _ ih =>
    obtain ⟨raws, h1, h2, h3⟩ := ih fun x hx => hf x (List.mem_cons_of_mem _ hx)
    have key : ∃ raw, out.Delivers raw ∧ pending q ++ op.given = raw ++ pending q' := by
      cases hs with
      | back_empty => exact ⟨[], rfl, by simp [Op.given, units]⟩
      | back_new hne hc => exact ⟨[], rfl, by simp [Op.given, pending]⟩
      | back_more hne hc => exact ⟨[], rfl, by simp [Op.given, pending, units_append]⟩
      | front => exact absurd rfl (hf _ (List.mem_cons_self ..) _)
      | line_empty => exact ⟨[], rfl, by simp [Op.given]⟩
      | @line i q s hst => exact ⟨units i.codes, ⟨i.codes, s, rfl, hst, rfl⟩, by simp [Op.given, pending]⟩
      | char_empty => exact ⟨[], rfl, by simp [Op.given]⟩
      | @char c cs w h s n q hc =>
        refine ⟨[c], rfl, ?_⟩
        have hu : units (c :: cs) = c :: units cs := by
          simp only [units, List.flatMap_cons, specUtf16]; rw [if_pos hc]; rfl
        by_cases hcs : cs = []
        · have hn : units [] = [] := rfl
          subst hcs; simp [Op.given, pending, hu, hn]
        · simp [Op.given, pending, hu, hcs]
      | @pair c cs w h s n q hc =>
        refine ⟨[_], rfl, ?_⟩
        have hu : units (c :: cs) = (0xD800 + (c - 65536) / 1024) :: (0xDC00 + (c - 65536) % 1024) :: units cs := by
          simp only [units, List.flatMap_cons, specUtf16]; rw [if_neg (by omega)]; simp only [List.cons_append, List.nil_append]
        have hlow : units ((0xDC00 + (c - 65536) % 1024) :: cs) = (0xDC00 + (c - 65536) % 1024) :: units cs := by
          simp only [units, List.flatMap_cons, specUtf16]; rw [if_pos (by omega)]; simp only [List.cons_append, List.nil_append]
        simp [Op.given, pending, hu, hlow]
    obtain ⟨raw, hd, he⟩ := key
    refine ⟨raw :: raws, by simp [h1], ?_, ?_⟩
    · intro k o r ho hr
      cases k with
      | zero => simp at ho hr; subst ho; subst hr; exact hd
      | succ k => simp at ho hr; exact h2 k o r ho hr
    · rw [List.flatMap_cons, List.flatten_cons, ← List.append_assoc, he, List.append_assoc, List.append_assoc, h3]

/-- C13.  The text put behind the queue is handed out once and in order, as lines or character by character, in
whatever mixture; what is not yet handed out is still there.  (A line is handed out with its line ending replaced by
CR LF.) -/
theorem C13_stream (lookup : Lookup) (enh : Bool) {ops : List Op} (hop : ∀ op ∈ ops, Op.Ok op) (hf : ∀ op ∈ ops, ∀ ls, op ≠ .front ls) :
    ∃ outs q' left, ∃ raws : List (List Nat), run lookup enh [] ops = some (outs, q') ∧ raws.length = outs.length ∧
      (∀ (k : Nat) (o : Out) (r : List Nat), outs[k]? = some o → raws[k]? = some r → o.Delivers r) ∧
      ops.flatMap Op.given = raws.flatten ++ left ∧ (q' = [] → left = []) := by
  obtain ⟨outs, q', is', h1, h2, h3⟩ := C13_queue lookup enh hop
  obtain ⟨raws, h4, h5, h6⟩ := steps_stream h2 hf
  refine ⟨outs, q', pending is', raws, h1, h4, h5, by simpa [pending] using h6, ?_⟩
  intro hq
  rw [h3.2 hq]; rfl

/-- Lines that wait at the front of the queue after an alias expanded to several commands. -/
def aliasLine (t : List Nat) : Line := { text := t, flags := { hide := true, nodoskey := true } }

/-- Takes a number of lines. -/
def takeLines (lookup : Lookup) (enh : Bool) : Nat → List Line → Option (List (Option (List Nat)) × List Line)
  | 0, q => some ([], q)
  | n + 1, q => (dequeueLine lookup enh q []).bind fun r => (takeLines lookup enh n r.2.2).map fun s => (r.1 :: s.1, s.2)

/-- C13.  If the first line is an alias for several commands, the next lines taken are those commands in order,
before anything else. -/
theorem C13_alias {lookup : Lookup} {enh : Bool} {t a out : List Nat} {as : List (List Nat)} (rest : List Line)
    (hr : Doskey.resolve lookup enh (strip t) = some (some out)) (hl : Doskey.lines out = a :: as) :
    takeLines lookup enh (as.length + 1) ({ text := t, flags := {} } :: rest) = some ((a :: as).map fun l => some (crlf l), rest) := by
  have h1 : dequeueLine lookup enh ({ text := t, flags := {} } :: rest) [] =
      some (some (crlf a), (if unfinished t = true then { edit := true } else {}), as.map aliasLine ++ rest) := by
    unfold dequeueLine
    simp only
    rw [if_pos (by split <;> simp), hr]
    simp only [hl]
    have e1 : ∀ (x y : List (List Nat)), x.foldl (fun q l => l :: q) y = x.reverse ++ y := by
      intro x
      induction x with
      | nil => intro y; rfl
      | cons b x ih => intro y; rw [List.foldl_cons, ih]; simp
    have e2 : ∀ (x : List (List Nat)) (y : List Line),
        x.foldl (fun q l => { text := l, flags := { hide := true, nodoskey := true } } :: q) y = (x.map aliasLine).reverse ++ y := by
      intro x
      induction x with
      | nil => intro y; rfl
      | cons b x ih => intro y; rw [List.foldl_cons, ih]; simp [aliasLine]
    rw [e1, e2]
    simp
  have h2 : ∀ x : List (List Nat), takeLines lookup enh x.length (x.map aliasLine ++ rest) = some (x.map fun l => some (crlf l), rest) := by
    intro x
    induction x with
    | nil => rfl
    | cons b x ih =>
      have : dequeueLine lookup enh ((b :: x).map aliasLine ++ rest) [] =
          some (some (crlf b), (if unfinished b = true then { hide := true, nodoskey := true, edit := true } else { hide := true, nodoskey := true }), x.map aliasLine ++ rest) := by
        unfold dequeueLine
        simp only [List.map_cons, List.cons_append]
        rw [if_neg (by intro h; split at h <;> simp [aliasLine] at h)]
        simp only [aliasLine]
        rfl
      rw [List.length_cons, takeLines, this]
      simp [ih]
  rw [takeLines, h1]
  simp [h2]

/-! Examples -/

/-- `ab⏎c` and `d⏎` are queued; a character and two lines are taken: `a`, `b`, `cd`. -/
example : run (fun _ => none) true [] [.back [97, 98, 10], .back [99], .char, .back [100, 10], .line, .line] =
    some ([.nothing, .nothing, .char 97 true, .nothing, .line [98, 13, 10] false true false false, .line [99, 100, 13, 10] false true false false], []) := by
  rfl

example : ∀ op ∈ [Op.back [97, 98, 10], .back [99], .char, .back [100, 0x1F600, 10], .front [([120], false, false, true)], .line], Op.Ok op := by
  intro op hop
  simp at hop
  rcases hop with rfl | rfl | rfl | rfl | rfl | rfl <;> simp [Op.Ok, IsText]

/-- `foo=a$Tb`. -/
example : Doskey.resolve (fun n => if n = [102, 111, 111] then some [97, 36, 84, 98] else none) true (strip [102, 111, 111, 13, 10]) =
    some (some [97, 10, 98]) ∧ Doskey.lines [97, 10, 98] = [[97], [98]] := by decide +kernel

/-! Where the code goes wrong: -/

/-- C13.  The commands of an alias are queued without a line ending, so a line that is queued afterwards is glued to
the last of them: `foo=a$Tb`, then `c` gives `a` and `bc`. -/
theorem C13_alias_glued : ∃ lookup : Lookup, ∃ q1 q2 : List Line, ∃ f1 f2 : Flags,
    dequeueLine lookup true [{ text := [102, 111, 111, 13, 10], flags := {} }] [] = some (some [97, 13, 10], f1, q1) ∧
    dequeueLine lookup true (enqueueBack q1 [99, 10]) [] = some (some [98, 99, 13, 10], f2, q2) ∧ q2 = [] :=
  ⟨fun n => if n = [102, 111, 111] then some [97, 36, 84, 98] else none, [aliasLine [98]], [], {}, { hide := true, nodoskey := true },
    by decide +kernel, by decide +kernel, rfl⟩

/-- C13.  An empty line (an alias with `$T$T`) can never be taken character by character. -/
theorem C13_empty_line_blocks (rest : List Line) : dequeueChar (aliasLine [] :: rest) = (none, aliasLine [] :: rest) := by rfl

end Clink.LineQueue
