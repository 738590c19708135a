import Verif.Proof.SettingsValue

/-! Writing and reading the settings file. -/

namespace Clink.Settings

open Spec
open Color (bs)

/-- One setting in the file. -/
structure Block where
  comment : List (List Nat)
  name : List Nat
  value : List Nat

structure Block.Ok (b : Block) : Prop where
  comment : ∀ l ∈ b.comment, LineOk l
  hash : ∀ l ∈ b.comment, l.head? = some 35
  name : NameOk b.name
  value : ValueOk b.value

def Block.lines (b : Block) : List (List Nat) := b.comment ++ [nameLine b.name b.value]

def Block.entry (b : Block) : Entry := ⟨b.name, autoupdate b.name b.value, unlines b.comment⟩

theorem Block.Ok.lines {b : Block} (h : b.Ok) : ∀ l ∈ b.lines, LineOk l ∧ l ≠ [] := by
  intro l hl
  rcases List.mem_append.1 hl with hl | hl
  · exact ⟨h.comment l hl, by rintro rfl; have := h.hash [] hl; cases this⟩
  · simp only [List.mem_singleton] at hl
    subst hl
    exact ⟨nameLine_ok h.name h.value, by simp [nameLine, bs]⟩

theorem loadLines_blocks (maybe : Bool) {bl : List Block} (h : ∀ b ∈ bl, b.Ok) : loadLines maybe false [] (bl.flatMap Block.lines) = bl.map Block.entry := by
  induction bl with
  | nil => rfl
  | cons b bl ih =>
    have hb := h b (by simp)
    rw [List.flatMap_cons, Block.lines, List.append_assoc, List.singleton_append, loadLines_comments maybe hb.hash hb.name hb.value,
      ih fun x hx => h x (List.mem_cons_of_mem _ hx)]
    rfl

/-- What is read of a file of settings and empty lines. -/
theorem load_blocks {ls : List (List Nat)} {bl : List Block} (h : ∀ b ∈ bl, b.Ok) (hl : ls.filter (· != []) = bl.flatMap Block.lines) :
    loadInternal (textMode (unlines ls)) = bl.map Block.entry := by
  have ok : ∀ l ∈ ls, LineOk l := by
    intro l hm
    by_cases hne : l = []
    · subst hne; exact ⟨.nil, by simp, by simp⟩
    · have : l ∈ ls.filter (· != []) := List.mem_filter.2 ⟨hm, by simpa using hne⟩
      rw [hl] at this
      obtain ⟨b, hb, hlb⟩ := List.mem_flatMap.1 this
      exact ((h b hb).lines l hlb).1
  unfold loadInternal
  simp only [tokens_unlines ok, hl]
  exact loadLines_blocks _ h

theorem lines_filter {b : Block} (h : b.Ok) : (b.lines ++ [[]]).filter (· != []) = b.lines := by
  rw [List.filter_append, List.filter_eq_self.2 fun l hl => by simpa using (h.lines l hl).2]
  simp

/-! ### Blocks of the settings that are written -/

def settingComment (s : Setting) : List (List Nat) :=
  [bs "# name: " ++ s.desc, bs "# type: " ++ typeName s.ty] ++
    match s.ty with
    | .enum options _ => [bs "# options: " ++ options]
    | _ => []

def settingBlock (s : Setting) : Block := ⟨settingComment s, s.name, (descriptive s.ty s.val).getD []⟩

theorem typeName_line (ty : Ty) : LineOk (typeName ty) := by
  have h : ∀ l ∈ [bs "boolean", bs "integer", bs "string", bs "enum", bs "color"], ∀ c ∈ l, 32 ≤ c ∧ c < 128 := by decide
  cases ty <;> exact lineOk_ascii (h _ (by simp [typeName]))

theorem settingBlock_ok {env : Env} (ok : AtoiOk env.atoi) {s : Setting} (hd : DeclOk s) (hv : ValOk env.lower s.ty s.val) : (settingBlock s).Ok := by
  have h1 : LineOk (bs "# name: " ++ s.desc) := lineOk_append (lineOk_ascii (by decide)) hd.desc
  have h2 : LineOk (bs "# type: " ++ typeName s.ty) := lineOk_append (lineOk_ascii (by decide)) (typeName_line _)
  have h3 : ∀ l ∈ settingComment s, LineOk l := by
    intro l hl
    unfold settingComment at hl
    rcases List.mem_append.1 hl with hl | hl
    · simp only [List.mem_cons, List.not_mem_nil, or_false] at hl
      rcases hl with rfl | rfl
      · exact h1
      · exact h2
    · split at hl
      · rename_i o d ho
        rw [ho] at hv
        simp only [List.mem_singleton] at hl
        subst hl
        revert hv
        generalize s.val = val
        intro hv
        cases hv with
        | enum h hn ho hk => exact lineOk_append (lineOk_ascii (by decide)) ho
      · cases hl
  refine ⟨h3, ?_, hd.name, ?_⟩
  · intro l hl
    have : l ∈ settingComment s := hl
    unfold settingComment at this
    rcases List.mem_append.1 this with hl | hl
    · simp only [List.mem_cons, List.not_mem_nil, or_false] at hl
      rcases hl with rfl | rfl <;> rfl
    · split at hl
      · simp only [List.mem_singleton] at hl
        subst hl
        rfl
      · cases hl
  · obtain ⟨t, h1, h2, -⟩ := value_round ok hd hv
    show ValueOk ((descriptive s.ty s.val).getD [])
    rw [h1]
    exact h2

theorem saveSetting_lines {s : Setting} (hs : s.save = true) {t : List Nat} (ht : descriptive s.ty s.val = some t) :
    saveSetting s = some (unlines ((settingBlock s).lines ++ [[]])) := by
  unfold saveSetting
  rw [if_pos hs, ht]
  simp only [Option.map_some, Option.some.injEq]
  unfold settingBlock Block.lines settingComment
  rw [ht]
  have h1 : bs "\n# type: " = 10 :: bs "# type: " := by decide
  have h2 : bs "\n\n" = [10, 10] := by decide
  have h3 : bs "\n" = [10] := by decide
  rw [h1, h2, h3]
  cases s.ty <;> simp [unlines, nameLine]

/-- What is written for known settings. -/
theorem saveKnown_lines {env : Env} (ok : AtoiOk env.atoi) {known : List Setting} (hd : ∀ s ∈ known, DeclOk s)
    (hv : ∀ s ∈ known, s.save = true → ValOk env.lower s.ty s.val) :
    saveKnown known = some (unlines ((known.filter (·.save)).flatMap fun s => (settingBlock s).lines ++ [[]])) := by
  induction known with
  | nil => rfl
  | cons s known ih =>
    have ih := ih (fun x hx => hd x (List.mem_cons_of_mem _ hx)) (fun x hx => hv x (List.mem_cons_of_mem _ hx))
    rw [saveKnown, ih]
    by_cases hs : s.save = true
    · obtain ⟨t, ht, -⟩ := value_round ok (hd s (by simp)) (hv s (by simp) hs)
      rw [saveSetting_lines hs ht, List.filter_cons_of_pos hs, List.flatMap_cons, unlines_append (_ ++ _)]
      rfl
    · rw [List.filter_cons_of_neg hs]
      unfold saveSetting
      rw [if_neg hs]
      rfl

/-- A comment as lines. -/
theorem extra_block {known : List Setting} {l : Loaded} (h : ExtraOk known l) :
    ∃ b : Block, b.Ok ∧ b.name = l.name ∧ b.value = l.value ∧ unlines b.comment = l.comment ∧ saveLoaded l = unlines (b.lines ++ [[]]) := by
  obtain ⟨cs, h1, h2, h3⟩ := commentOk_lines h.comment
  refine ⟨⟨cs, l.name, l.value⟩, ⟨h2, h3, h.name, h.value⟩, rfl, rfl, h1.symm, ?_⟩
  unfold saveLoaded Block.lines
  rw [unlines_append, unlines_append, ← h1]
  have h2 : bs "\n\n" = [10, 10] := by decide
  rw [h2]
  simp [unlines, nameLine]

/-- Those of loaded settings. -/
theorem extra_blocks {known : List Setting} {l : List Loaded} (h : ∀ x ∈ l, ExtraOk known x) :
    ∃ bl : List Block, (∀ b ∈ bl, b.Ok) ∧ l.flatMap saveLoaded = unlines (bl.flatMap fun (b : Block) => b.lines ++ [[]]) ∧
      bl.map (fun b => (b.name, b.value, unlines b.comment)) = l.map fun x => (x.name, x.value, x.comment) := by
  induction l with
  | nil => exact ⟨[], by simp, rfl, rfl⟩
  | cons x l ih =>
    obtain ⟨bl, h1, h2, h3⟩ := ih fun y hy => h y (List.mem_cons_of_mem _ hy)
    obtain ⟨b, g1, g2, g3, g4, g5⟩ := extra_block (h x (by simp))
    refine ⟨b :: bl, by simpa using ⟨g1, h1⟩, ?_, ?_⟩
    · rw [List.flatMap_cons, List.flatMap_cons, unlines_append, g5, h2]
    · rw [List.map_cons, List.map_cons, h3, g2, g3, g4]

/-! ### The maps -/

theorem any_name {known : List Setting} {n : List Nat} : (known.any (·.name == n)) = true ↔ ∃ s ∈ known, s.name = n := by
  simp

/-- What is left to write after known settings. -/
theorem unsaved_strangers {env : Env} {custom : Custom} {st : State} (h : StateOk env custom st) :
    (markSaved st.known st.loaded).filter (!·.saved) = strangers st := by
  unfold markSaved strangers
  have hl := h.extra
  revert hl
  generalize st.loaded = loaded
  intro hl
  induction loaded with
  | nil => rfl
  | cons l t ih =>
    have ih := ih fun x hx => hl x (List.mem_cons_of_mem _ hx)
    rw [List.map_cons]
    by_cases hk : (st.known.any (·.name == l.name)) = true
    · rw [if_pos hk, List.filter_cons_of_neg (by simp), List.filter_cons_of_neg (by rw [hk]; decide), ih]
    · rw [if_neg hk]
      rcases hl l (by simp) with h1 | ⟨h1, -⟩
      · exact absurd (any_name.2 h1) hk
      · rw [List.filter_cons_of_pos (by rw [h1]; rfl), List.filter_cons_of_pos (by simp at hk; simpa using hk), ih]

theorem strangers_ok {env : Env} {custom : Custom} {st : State} (h : StateOk env custom st) :
    ∀ l ∈ strangers st, l.saved = false ∧ ExtraOk st.known l := by
  intro l hl
  obtain ⟨h1, h2⟩ := List.mem_filter.1 hl
  rcases h.extra l h1 with h3 | h3
  · have := any_name.2 h3
    rw [this] at h2
    cases h2
  · exact h3

theorem findIdx_unknown {known : List Setting} {n : List Nat} (h : Unknown known n) : findIdx known n = none := by
  unfold findIdx
  have h1 : known.findIdx? (fun s => same s.name n) = none := by
    rw [List.findIdx?_eq_none_iff]
    intro s hs
    have := (h s hs).1
    rw [sameName_iff] at this
    simpa using this
  rw [h1]
  simp only
  split
  · rename_i hn
    rw [List.findIdx?_eq_none_iff]
    intro s hs
    have := (h s hs).2 hn
    rw [sameName_iff] at this
    simpa using this
  · rfl

theorem findIdx_at {a b : List Setting} {s : Setting} {n : List Nat} (h : ∀ x ∈ a, ¬ SameName x.name n) (hs : SameName s.name n) :
    findIdx (a ++ s :: b) n = some a.length := by
  unfold findIdx
  have : (a ++ s :: b).findIdx? (fun s => same s.name n) = some a.length := by
    rw [List.findIdx?_eq_some_iff_getElem]
    refine ⟨by simp, ?_, ?_⟩
    · simpa using sameName_iff.1 hs
    · intro j hj
      rw [List.getElem_append_left hj]
      have := h _ (List.getElem_mem hj)
      rw [sameName_iff] at this
      simpa using this
  rw [this]

theorem before_iff {a b : List Nat} : before a b = true ↔ Before a b := by
  induction a generalizing b with
  | nil =>
    cases b with
    | nil => simp [before]; intro h; cases h
    | cons y b => simp [before]; exact .nil
  | cons x a ih =>
    cases b with
    | nil => simp [before]; intro h; cases h
    | cons y b =>
      rw [before, Bool.or_eq_true, Bool.and_eq_true, decide_eq_true_iff, beq_iff_eq, ih]
      constructor
      · rintro (h | ⟨rfl, h⟩)
        · exact .lt h
        · exact .eq h
      · intro h
        cases h with
        | lt h => exact .inl h
        | eq h => exact .inr ⟨rfl, h⟩

theorem before_asymm {a b : List Nat} (h : Before a b) : ¬ Before b a := by
  induction h with
  | nil => intro h; cases h
  | lt h =>
    intro h'
    cases h' with
    | lt h' => omega
    | eq h' => omega
  | eq h ih =>
    intro h'
    cases h' with
    | lt h' => omega
    | eq h' => exact ih h'

theorem before_irrefl (a : List Nat) : ¬ Before a a := fun h => before_asymm h h

theorem emplace_last {e : Loaded} {l : List Loaded} (h : ∀ f ∈ l, Before f.name e.name) : emplace e l = l ++ [e] := by
  induction l with
  | nil => rfl
  | cons f l ih =>
    have hf := h f (by simp)
    rw [emplace, if_neg, if_neg, ih fun x hx => h x (List.mem_cons_of_mem _ hx)]
    · rfl
    · intro he
      rw [he] at hf
      exact before_irrefl _ hf
    · rw [before_iff]
      exact before_asymm hf

/-! ### Reading what was written -/

/-- Adding one entry of the file. -/
def addEntry (env : Env) (st : State) (e : Entry) : State := (setSetting env st e.name e.value (some e.comment)).1

theorem add_known {env : Env} (ok : AtoiOk env.atoi) {custom : Custom} {done todo : List Setting} {s : Setting} (hd : DeclOk s)
    (hv : ValOk env.lower s.ty s.val) (hs : s.save = true) (hn : ∀ x ∈ done, ¬ SameName x.name s.name) (loaded : List Loaded) :
    addEntry env ⟨done ++ s.reset env custom :: todo, loaded⟩ (settingBlock s).entry = ⟨done ++ s :: todo, loaded⟩ := by
  obtain ⟨t, h1, -, h3⟩ := value_round ok hd hv
  unfold addEntry setSetting
  have hi : findIdx (done ++ s.reset env custom :: todo) (settingBlock s).entry.name = some done.length :=
    findIdx_at hn (sameName_refl _)
  simp only [hi]
  have hg : (done ++ s.reset env custom :: todo)[done.length]? = some (s.reset env custom) := by simp
  simp only [hg]
  have hset : ((s.reset env custom).set env (settingBlock s).entry.value).1 = s := by
    have : (settingBlock s).entry.value = autoupdate s.name t := by
      show autoupdate s.name ((descriptive s.ty s.val).getD []) = _
      rw [h1]
      rfl
    rw [this]
    unfold Setting.set
    rw [show parse env (s.reset env custom).ty (autoupdate s.name t) = some s.val from h3]
    cases s
    cases hs
    rfl
  rw [hset]
  simp

theorem add_all {env : Env} (ok : AtoiOk env.atoi) {custom : Custom} {done todo : List Setting} (hd : ∀ s ∈ todo, DeclOk s)
    (hv : ∀ s ∈ todo, s.save = true → ValOk env.lower s.ty s.val) (hu : ∀ s ∈ todo, s.save = false → s.reset env custom = s)
    (hn : (done ++ todo).Pairwise fun s t => ¬ SameName s.name t.name) (loaded : List Loaded) :
    ((todo.filter (·.save)).map fun s => (settingBlock s).entry).foldl (addEntry env) ⟨done ++ todo.map (·.reset env custom), loaded⟩ =
      ⟨done ++ todo, loaded⟩ := by
  induction todo generalizing done with
  | nil => rfl
  | cons s todo ih =>
    have hn' : (done ++ [s] ++ todo).Pairwise fun s t => ¬ SameName s.name t.name := by simpa using hn
    have ih := ih (done := done ++ [s]) (fun x hx => hd x (List.mem_cons_of_mem _ hx)) (fun x hx => hv x (List.mem_cons_of_mem _ hx))
      (fun x hx => hu x (List.mem_cons_of_mem _ hx)) hn'
    by_cases hs : s.save = true
    · rw [List.filter_cons_of_pos hs, List.map_cons, List.map_cons, List.foldl_cons,
        add_known ok (hd s (by simp)) (hv s (by simp) hs) hs fun x hx => (List.pairwise_append.1 hn).2.2 x hx s (by simp)]
      simpa using ih
    · rw [List.filter_cons_of_neg hs, List.map_cons, hu s (by simp) (by simpa using hs)]
      simpa using ih

theorem trim_old {pre w post : List Nat} (hpre : ∀ c ∈ pre, c = 32 ∨ c = 9) (hpost : ∀ c ∈ post, c = 32 ∨ c = 9 ∨ c = 13 ∨ c = 10) (hwne : w ≠ [])
    (hw : ∀ c ∈ w, 65 ≤ c) : trim (pre ++ w ++ post) = w := by
  unfold trim
  rw [List.reverse_append, List.dropWhile_append_of_pos (by
    intro c hc
    have := hpost c (by simpa using hc)
    simpa [or_assoc] using this), List.reverse_append]
  have h1 : (w.reverse ++ pre.reverse).dropWhile (fun c => c == 32 || c == 9 || c == 13 || c == 10) = w.reverse ++ pre.reverse := by
    cases hr : w.reverse with
    | nil => exact absurd (List.reverse_eq_nil_iff.1 hr) hwne
    | cons c r =>
      have := hw c (by rw [← List.mem_reverse, hr]; simp)
      rw [List.cons_append, List.dropWhile_cons_of_neg (by simp; omega)]
  rw [h1]
  simp only [List.reverse_append, List.reverse_reverse]
  rw [List.dropWhile_append_of_pos (by intro c hc; simpa using hpre c hc)]
  cases w with
  | nil => exact absurd rfl hwne
  | cons c r =>
    have := hw c (by simp)
    rw [List.dropWhile_cons_of_neg (by simp; omega)]

theorem mem_trim_old {v : List Nat} : OldWord v ↔
    ∃ x ∈ [bs "false", bs "off", bs "no", bs "true", bs "on", bs "yes"], same (trim v) x = true := by
  have hx : ∀ x ∈ [bs "false", bs "off", bs "no", bs "true", bs "on", bs "yes"], (∀ y ∈ x, 97 ≤ y ∧ y ≤ 122) ∧ x ≠ [] := by decide
  constructor
  · rintro ⟨pre, w, post, rfl, hpre, hpost, x, hxm, hl⟩
    refine ⟨x, hxm, ?_⟩
    obtain ⟨hx1, hx2⟩ := hx x hxm
    have hwx : w.map Color.lower = x := (Color.like_iff hx1).1 hl
    have hw : ∀ c ∈ w, 65 ≤ c := by
      intro c hc
      have : Color.lower c ∈ x := by rw [← hwx]; exact List.mem_map_of_mem hc
      have := hx1 _ this
      unfold Color.lower at this
      split at this <;> omega
    have hwne : w ≠ [] := by
      rintro rfl
      exact hx2 hwx.symm
    have ht := trim_old hpre hpost hwne hw
    rw [ht, ← like_same (fun y hy => by have := hx1 y hy; omega)]
    exact hl
  · rintro ⟨x, hxm, hs⟩
    obtain ⟨hx1, -⟩ := hx x hxm
    rw [← like_same (fun y hy => by have := hx1 y hy; omega)] at hs
    have hsplit : ∀ (p : Nat → Bool) (l : List Nat), l = l.takeWhile p ++ l.dropWhile p := fun p l => (List.takeWhile_append_dropWhile).symm
    have htake : ∀ (p : Nat → Bool) (l : List Nat), ∀ c ∈ l.takeWhile p, p c = true := by
      intro p l
      induction l with
      | nil => simp
      | cons a l ih =>
        intro c hc
        rw [List.takeWhile_cons] at hc
        split at hc
        · rcases List.mem_cons.1 hc with rfl | hc
          · assumption
          · exact ih c hc
        · cases hc
    generalize hP : (fun c : Nat => c == 32 || c == 9 || c == 13 || c == 10) = P at *
    refine ⟨((v.reverse.dropWhile P).reverse).takeWhile fun c => c == 32 || c == 9, trim v, (v.reverse.takeWhile P).reverse, ?_, ?_, ?_, x, hxm, hs⟩
    · have h1 := hsplit P v.reverse
      have h2 := hsplit (fun c => c == 32 || c == 9) (v.reverse.dropWhile P).reverse
      have h3 : trim v = ((v.reverse.dropWhile P).reverse).dropWhile fun c => c == 32 || c == 9 := by
        unfold trim
        rw [hP]
      rw [h3, ← h2, ← List.reverse_append, ← h1, List.reverse_reverse]
    · intro c hc
      simpa using htake _ _ c hc
    · intro c hc
      have := htake P _ c (by simpa using hc)
      rw [← hP] at this
      simpa [or_assoc] using this

theorem autoupdate_extra {known : List Setting} {l : Loaded} (h : ExtraOk known l) : autoupdate l.name l.value = l.value := by
  by_cases hl : Color.Spec.Like l.name (bs "clink.autoupdate")
  · have ho := h.auto hl
    rw [mem_trim_old] at ho
    simp only [List.mem_cons, List.not_mem_nil, or_false, exists_eq_or_imp, exists_eq_left, not_or] at ho
    obtain ⟨h1, h2, h3, h4, h5, h6⟩ := ho
    rw [Bool.not_eq_true] at h1 h2 h3 h4 h5 h6
    unfold autoupdate
    simp only [h1, h2, h3, h4, h5, h6]
    split <;> rfl
  · exact autoupdate_other hl _

theorem add_extra {env : Env} {known : List Setting} {done todo : List Loaded} {bl : List Block}
    (hb : bl.map (fun b => (b.name, b.value, unlines b.comment)) = todo.map fun x => (x.name, x.value, x.comment))
    (h : ∀ l ∈ todo, l.saved = false ∧ ExtraOk known l) (hs : (done ++ todo).Pairwise fun a b => Before a.name b.name) :
    (bl.map Block.entry).foldl (addEntry env) ⟨known, done⟩ = ⟨known, done ++ todo⟩ := by
  induction todo generalizing done bl with
  | nil =>
    cases bl with
    | nil => simp
    | cons b bl => cases hb
  | cons l todo ih =>
    cases bl with
    | nil => cases hb
    | cons b bl =>
      rw [List.map_cons, List.map_cons, List.cons.injEq, Prod.mk.injEq, Prod.mk.injEq] at hb
      obtain ⟨⟨b1, b2, b3⟩, hb⟩ := hb
      obtain ⟨h1, h2⟩ := h l (by simp)
      have hs' : (done ++ [l] ++ todo).Pairwise fun a b => Before a.name b.name := by simpa using hs
      have ih := ih (done := done ++ [l]) hb (fun x hx => h x (List.mem_cons_of_mem _ hx)) hs'
      have e : addEntry env ⟨known, done⟩ b.entry = ⟨known, done ++ [l]⟩ := by
        unfold addEntry setSetting Block.entry
        simp only [b1, b2, b3, autoupdate_extra h2, findIdx_unknown h2.unknown]
        rw [show (⟨l.name, l.comment, l.value, false⟩ : Loaded) = l by cases l; cases h1; rfl,
          emplace_last fun f hf => (List.pairwise_append.1 hs).2.2 f hf l (by simp)]
      rw [List.map_cons, List.foldl_cons, e, ih]
      simp

theorem reset_decl {env : Env} {custom : Custom} {s t : Setting} (h : (s.name, s.desc, s.ty) = (t.name, t.desc, t.ty)) (hd : DeclOk t) :
    s.reset env custom = t.reset env custom := by
  rw [Prod.mk.injEq, Prod.mk.injEq] at h
  obtain ⟨h1, h2, h3⟩ := h
  have hv : resetVal env custom s = resetVal env custom t := by
    unfold resetVal
    rw [h1, h3]
    split
    · rfl
    · split
      · rename_i d hd'
        obtain ⟨c, hc⟩ := Option.ne_none_iff_exists'.1 (hd.color d hd')
        simp only [parse, hc, Option.map_some, Option.getD_some]
      · rfl
  unfold Setting.reset
  simp only [hv]
  rw [h3]
  cases s
  cases t
  simp only at h1 h2 h3
  subst h1 h2 h3
  rfl

theorem reset_all {env : Env} {custom : Custom} {a b : List Setting} (h : SameDecl a b) (hd : ∀ s ∈ b, DeclOk s) :
    a.map (·.reset env custom) = b.map (·.reset env custom) := by
  induction a generalizing b with
  | nil =>
    cases b with
    | nil => rfl
    | cons t b => cases h
  | cons s a ih =>
    cases b with
    | nil => cases h
    | cons t b =>
      unfold SameDecl at h
      rw [List.map_cons, List.map_cons, List.cons.injEq] at h
      rw [List.map_cons, List.map_cons, reset_decl h.1 (hd t (by simp)), ih h.2 fun x hx => hd x (List.mem_cons_of_mem _ hx)]

/-- What is written is read. -/
theorem reload {env : Env} (ok : AtoiOk env.atoi) {custom : Custom} {st st' : State} (h : StateOk env custom st) (hd : SameDecl st'.known st.known) :
    ∃ file st2, save st = some (file, st2) ∧ st2.known = st.known ∧ load env custom st' (some file) = ⟨st.known, strangers st⟩ := by
  have hk := saveKnown_lines ok h.decl h.saved
  obtain ⟨bl, b1, b2, b3⟩ := extra_blocks fun l hl => (strangers_ok h l hl).2
  let kb := (st.known.filter (·.save)).map settingBlock
  have kbok : ∀ b ∈ kb, b.Ok := by
    intro b hb
    obtain ⟨s, hs, rfl⟩ := List.mem_map.1 hb
    obtain ⟨hs, hsv⟩ := List.mem_filter.1 hs
    exact settingBlock_ok ok (h.decl s hs) (h.saved s hs hsv)
  let sep : List (List Nat) := if strangers st = [] then [] else [[], []]
  let ls := (kb.flatMap fun (b : Block) => b.lines ++ [[]]) ++ sep ++ bl.flatMap fun (b : Block) => b.lines ++ [[]]
  have hfile : save st = some (textMode (unlines ls), { st with loaded := markSaved st.known st.loaded }) := by
    unfold save
    rw [hk]
    simp only [Option.map_some, Option.some.injEq, Prod.mk.injEq, and_true]
    congr 1
    unfold saveExtra
    simp only [unsaved_strangers h]
    show _ = unlines ((kb.flatMap fun (b : Block) => b.lines ++ [[]]) ++ sep ++ bl.flatMap fun (b : Block) => b.lines ++ [[]])
    rw [unlines_append, unlines_append, ← b2, List.append_assoc]
    congr 1
    · rw [List.flatMap_map]
    · show _ = unlines (if strangers st = [] then [] else [[], []]) ++ _
      by_cases hs : strangers st = []
      · rw [if_pos hs, if_pos hs, hs]
        rfl
      · rw [if_neg hs, if_neg hs]
        rfl
  refine ⟨_, _, hfile, rfl, ?_⟩
  have hfilter : ∀ {bl : List Block}, (∀ b ∈ bl, b.Ok) → (bl.flatMap fun (b : Block) => b.lines ++ [[]]).filter (· != []) = bl.flatMap Block.lines := by
    intro bl hb
    induction bl with
    | nil => rfl
    | cons b bl ih =>
      rw [List.flatMap_cons, List.filter_append, lines_filter (hb b (by simp)), ih fun x hx => hb x (List.mem_cons_of_mem _ hx)]
      rfl
  have hsep : sep.filter (· != []) = [] := by
    show (if strangers st = [] then [] else [[], []]).filter _ = _
    split <;> rfl
  have hent : loadInternal (textMode (unlines ls)) = (kb ++ bl).map Block.entry := by
    refine load_blocks (fun b hb => (List.mem_append.1 hb).elim (kbok b) (b1 b)) ?_
    show ((kb.flatMap fun (b : Block) => b.lines ++ [[]]) ++ sep ++ bl.flatMap fun (b : Block) => b.lines ++ [[]]).filter _ = _
    rw [List.filter_append, List.filter_append, hfilter kbok, hfilter b1, hsep, List.flatMap_append]
    simp
  unfold load
  simp only [hent, reset_all hd h.decl]
  show ((kb ++ bl).map Block.entry).foldl (addEntry env) _ = _
  rw [List.map_append, List.foldl_append]
  have := add_all ok (custom := custom) (done := []) h.decl h.saved h.unsaved (by simpa using h.differ) []
  rw [List.nil_append, List.nil_append] at this
  rw [show kb.map Block.entry = (st.known.filter (·.save)).map fun s => (settingBlock s).entry by
    show ((st.known.filter (·.save)).map settingBlock).map Block.entry = _
    rw [List.map_map]; rfl, this]
  have hsort : (strangers st).Pairwise fun a b => Before a.name b.name := h.sorted.sublist List.filter_sublist
  have := add_extra (env := env) (known := st.known) (done := []) b3 (strangers_ok h) (by simpa using hsort)
  simpa using this

end Clink.Settings
