import Verif.Proof.MatchColorsPick
/-!
C57: colouring rules of matches (lib/src/match_colors.cpp).
-/
namespace Clink.MatchColors
open Spec (Broken Ty Cond Item Written Usable ColorIs typeColor NameOf bs code)

/-- What the user sees for a colour. -/
def outOf (no : Option Text) : Option Text → Out
  | none => .plain
  | some c => .color (code no c)

theorem parse_eq {l : List Item} {s : Text} (h : Written l s) (hu : ∀ i ∈ l, Usable i) (c : Colors) :
    parse c s = l.foldl addSem ⟨c, [], false, none⟩ := by
  have := parse_written h hu (u := []) (.inl rfl) (s.length + 1) ⟨c, [], false, none⟩ (by simp)
  rw [List.append_nil] at this
  exact this

theorem pick {e : Env} {rl : Bool} {l : List Item} (hu : ∀ i ∈ l, Usable i) (hl : l ≠ []) {so : Text} {ro hi : Option Text} {t : MType}
    {path : Text} (hk : t.kind ≠ .cmd ∧ t.kind ≠ .alias) {flags : List Flag} {ind : Ty} {has : Ty → Bool}
    (hc : classify e (l.foldl addSem ⟨initColors so ro hi, [], false, none⟩).colors t path = (flags, toInd ind)) (ha : Agree flags has) :
    ∃ c, ColorIs e.wild (Spec.actual so ro hi) l has ind (patName e flags path) c ∧
      getMatchColor e rl (l.foldl addSem ⟨initColors so ro hi, [], false, none⟩) t path = outOf (typeColor (Spec.actual so ro hi) l .no) c := by
  have hst := fold_stats l ⟨initColors so ro hi, [], false, none⟩ (.inr hl)
  have hru := fold_rules l ⟨initColors so ro hi, [], false, none⟩
  have hco := fun t => fold_colors l t ⟨initColors so ro hi, [], false, none⟩
  generalize l.foldl addSem ⟨initColors so ro hi, [], false, none⟩ = st at *
  have hcol : ∀ t, st.colors (toInd t) = typeColor (Spec.actual so ro hi) l t := by
    intro t; rw [hco t, typeColor_eq, ← initColors_eq]
  have hno : st.colors .no = typeColor (Spec.actual so ro hi) l .no := hcol .no
  unfold getMatchColor
  simp only [hst, Bool.or_true, Bool.not_true, Bool.false_eq_true, if_false, if_neg hk.1, if_neg hk.2, hc, hru, List.nil_append]
  rcases find_first (e := e) (n := patName e flags path) ha hu with ⟨r, h1, h2⟩ | ⟨h1, h2⟩
  · refine ⟨some r.seq, .inl ⟨_, h2, rfl⟩, ?_⟩
    simp only [h1, makeColor_eq, hno]
    rfl
  · refine ⟨typeColor (Spec.actual so ro hi) l ind, .inr ⟨h2, rfl⟩, ?_⟩
    simp only [h1, hcol]
    cases typeColor (Spec.actual so ro hi) l ind with
    | none => rfl
    | some c => simp only [makeColor_eq, hno]; rfl

/-- C57: for every series of rules, however it is written, a file or directory has the colour of the first rule
with several conditions which fits, else the colour of its type. -/
theorem C57_color (e : Env) (rl : Bool) {l : List Item} {s : Text} (hw : Written l s) (hu : ∀ i ∈ l, Usable i) (hl : l ≠ [])
    (so : Text) (ro hi : Option Text) {t : MType} (ht : t.kind = .file ∨ t.kind = .dir) (path : Text)
    {en : Spec.Entry} (hen : en = ⟨t.kind == .dir, t.kind != .dir && e.isExec path, t.link, t.orphaned, t.hidden, t.readonly⟩)
    {tg : Bool} (htg : tg = Spec.targetColor (typeColor (Spec.actual so ro hi) l .ln)) :
    ∃ name c, NameOf (e.pastDrive (Spec.bare tg en path)) name ∧
      ColorIs e.wild (Spec.actual so ro hi) l (Spec.has tg en) (Spec.shown tg en) name c ∧
      getMatchColor e rl (parse (initColors so ro hi) s) t path = outOf (typeColor (Spec.actual so ro hi) l .no) c := by
  rw [parse_eq hw hu]
  have hcol : ∀ t, (l.foldl addSem ⟨initColors so ro hi, [], false, none⟩).colors (toInd t) = typeColor (Spec.actual so ro hi) l t := by
    intro t; rw [fold_colors, typeColor_eq, ← initColors_eq]
  have hmi := (hcol .mi).trans (typeColor_default (usable_not hu (.inl rfl)))
  have hor := (hcol .orphan).trans (typeColor_default (usable_not hu (.inr (.inl rfl))))
  obtain ⟨h1, h2, h3⟩ := classify_path (e := e) (name := path) ht hmi hor
  have hln := hcol .ln
  simp only [toInd] at hln
  rw [hln, ← htg, show entryOf e t path = en from hen.symm] at h1 h2 h3
  obtain ⟨c, hc, hg⟩ := pick (rl := rl) (path := path) hu hl (t := t)
    ⟨by rcases ht with h | h <;> rw [h] <;> decide, by rcases ht with h | h <;> rw [h] <;> decide⟩ (Prod.ext rfl h2) h1
  refine ⟨_, c, ?_, hc, hg⟩
  have hn := patName_name e (classify e (l.foldl addSem ⟨initColors so ro hi, [], false, none⟩).colors t path).1 path
  have hb : (if Flag.dir ∈ (classify e (l.foldl addSem ⟨initColors so ro hi, [], false, none⟩).colors t path).1 then stripSeps path else path) =
      Spec.bare tg en path := by
    unfold Spec.bare stripSeps
    rw [isSep_eq]
    by_cases h : Spec.look tg en = .dir
    · rw [if_pos (h3.2 h), if_pos h]
    · rw [if_neg (fun h' => h (h3.1 h')), if_neg h]
  rw [hb] at hn
  exact hn

/-- C57 (words): a match which is no file or directory has no types: it has the colour `no`, unless a rule fits it which
asks for no type. -/
theorem C57_word (e : Env) (rl : Bool) {l : List Item} {s : Text} (hw : Written l s) (hu : ∀ i ∈ l, Usable i) (hl : l ≠ [])
    (so : Text) (ro hi : Option Text) {t : MType} (ht : t.kind = .word ∨ t.kind = .arg ∨ t.kind = .none) (path : Text) :
    ∃ name c, NameOf (e.pastDrive path) name ∧
      ColorIs e.wild (Spec.actual so ro hi) l (fun _ => false) .no name c ∧
      getMatchColor e rl (parse (initColors so ro hi) s) t path = outOf (typeColor (Spec.actual so ro hi) l .no) c := by
  rw [parse_eq hw hu]
  have hcol : ∀ t, (l.foldl addSem ⟨initColors so ro hi, [], false, none⟩).colors (toInd t) = typeColor (Spec.actual so ro hi) l t := by
    intro t; rw [fold_colors, typeColor_eq, ← initColors_eq]
  have hmi := (hcol .mi).trans (typeColor_default (usable_not hu (.inl rfl)))
  have hor := (hcol .orphan).trans (typeColor_default (usable_not hu (.inr (.inl rfl))))
  have hc := classify_word (e := e) (name := path) ht hmi hor
  obtain ⟨c, h1, h2⟩ := pick (rl := rl) (path := path) (ind := .no) (has := fun _ => false) hu hl (t := t)
    ⟨by rcases ht with h | h | h <;> rw [h] <;> decide, by rcases ht with h | h | h <;> rw [h] <;> decide⟩ hc
    (by intro t f _ _; simp)
  exact ⟨_, c, patName_name e [] path, h1, h2⟩

/-- C57 (commands): commands and aliases have their own colours, whatever the rules say. -/
theorem C57_command (e : Env) (rl : Bool) {l : List Item} {s : Text} (hw : Written l s) (hu : ∀ i ∈ l, Usable i) (hl : l ≠ [])
    (so : Text) (ro hi : Option Text) {t : MType} (path c : Text)
    (ht : t.kind = .cmd ∧ e.cmdColor = some c ∨ t.kind = .alias ∧ e.aliasColor = some c) :
    getMatchColor e rl (parse (initColors so ro hi) s) t path = .color (code (typeColor (Spec.actual so ro hi) l .no) c) := by
  rw [parse_eq hw hu]
  have hst := fold_stats l ⟨initColors so ro hi, [], false, none⟩ (.inr hl)
  have hno : (l.foldl addSem ⟨initColors so ro hi, [], false, none⟩).colors .no = typeColor (Spec.actual so ro hi) l .no :=
    (fold_colors l .no _).trans (by rw [typeColor_eq, ← initColors_eq])
  unfold getMatchColor
  simp only [hst, Bool.or_true, Bool.not_true, Bool.false_eq_true, if_false, makeColor_eq, hno]
  rcases ht with ⟨h1, h2⟩ | ⟨h1, h2⟩
  · rw [if_pos h1, h2]; rfl
  · rw [if_neg (by rw [h1]; decide), if_pos h1, h2]; rfl

/-- C57 (prefix): the colour of the common prefix is the last one given with the rules, else that of the setting. -/
theorem C57_prefix {l : List Item} {s : Text} (hw : Written l s) (hu : ∀ i ∈ l, Usable i) (colors : Colors) (setting : Text) :
    completionPrefix setting (parse colors s) = Spec.prefixColor setting l := by
  rw [parse_eq hw hu]
  unfold completionPrefix
  rw [fold_pfx]
  rfl

theorem scan_open {v d1 d2 q} {r : Text} (h : 34 ∉ r) : ∀ tok, (scan v d1 d2 .quote tok q r).ret = .err := by
  induction r with
  | nil => intro tok; rfl
  | cons c r ih =>
    intro tok
    have hc : c ≠ 34 := fun e => h (e ▸ List.mem_cons_self)
    rw [scan_go (st' := .quote) (tok' := tok ++ [c]) (q' := q) (by simp only [step, if_neg hc])]
    exact ih (fun e => h (List.mem_cons_of_mem _ e)) _

theorem scan_stuck {v d1 d2 tok q} {r : Text} (h : Spec.Stuck r) : (scan v d1 d2 .text tok q r).ret = .err := by
  cases h with
  | quote r hr =>
    rw [scan_go (c := 34) (st' := .quote) (q' := true) rfl]
    exact scan_open hr _
  | backslash => rfl
  | caret => rfl
  | caretBad c r hc =>
    rw [scan_go (c := 94) (st' := .caret) (q' := q) rfl, scan_stop (r := .err) (by
      simp only [step]
      rw [if_neg (by omega), if_neg (by omega)])]

theorem broken_none {b : Text} (h : Broken b) : tokenAndValue b = none := by
  cases h with
  | noEq w u hw hu =>
    have hr : (getToken true 58 61 (Spec.textOf w ++ u)).ret = .fin := by
      unfold getToken
      rw [scan_word (stops := [61]) ⟨.inl rfl, .inr (by simp)⟩ hw]
      rcases hu with hu | ⟨r, hu⟩ <;> subst hu <;> rfl
    unfold tokenAndValue
    rw [if_neg (by rw [hr]; decide)]
  | noEnd w r hw hr =>
    have hr : (getToken true 58 61 (Spec.textOf w ++ r)).ret = .err := by
      unfold getToken
      rw [scan_word (stops := [61]) ⟨.inl rfl, .inr (by simp)⟩ hw]
      exact scan_stuck hr
    unfold tokenAndValue
    rw [if_neg (by rw [hr]; decide)]
  | noValue w v r hw hv hr =>
    have hr : (getToken false 58 0 (Spec.textOf v ++ r)).ret = .err := by
      unfold getToken
      rw [scan_word (stops := []) ⟨.inl rfl, .inl rfl⟩ hv]
      exact scan_stuck hr
    unfold tokenAndValue
    rw [getToken_verbatim hw]
    simp only [if_true]
    rw [if_pos hr]

/-- C57 (errors): what comes before an item that cannot be read is not affected by it. -/
theorem C57_error {l : List Item} {s bad : Text} (hw : Written l s) (hu : ∀ i ∈ l, Usable i) (hb : Broken bad) (colors : Colors) :
    parse colors (s ++ 58 :: bad) = parse colors s := by
  rw [parse_eq hw hu]
  exact parse_written hw hu (u := 58 :: bad) (.inr ⟨bad, rfl, .inr (broken_none hb)⟩) _ _ (Nat.lt_succ_self _)

/-- C57 (one colour): what is said above determines the colour. -/
theorem C57_unique {wild : Text → Text → Bool} {d : Ty → Option Text} {l : List Item} {has : Ty → Bool} {shown : Ty} {name : Text}
    {a b : Option Text} (ha : ColorIs wild d l has shown name a) (hb : ColorIs wild d l has shown name b) : a = b := by
  rcases ha with ⟨c, h1, h2⟩ | ⟨h1, h2⟩ <;> rcases hb with ⟨c', h3, h4⟩ | ⟨h3, h4⟩
  · rw [h2, h4, first_unique h1 h3]
  · exact absurd h1 (h3 c)
  · exact absurd h3 (h1 c')
  · rw [h2, h4]

/-! ### Examples -/

/-- Patterns of the examples: `*` and an ending, or the name itself. -/
def star (p n : Text) : Bool := match p with
  | 42 :: q => n.reverse.take q.length == q.reverse
  | _ => p == n

def env : Env := ⟨star, fun n => star (bs "*.exe") n, fun _ => none, fun _ => none, id, some (bs "1"), some (bs "2")⟩

def colorOf (rules : String) (t : MType) (path : String) : Out :=
  getMatchColor env false (parse (initColors (bs "35") none none) (bs rules)) t (bs path)

def shows (c : String) : Out := .color (bs "\x1b[" ++ bs c ++ bs "m")

-- The first example of the documentation.
example : colorOf "di=94:di *.tmp=90" ⟨.dir, false, false, false, false, false⟩ "x\\y.tmp\\" = shows "90" ∧
    colorOf "di=94:di *.tmp=90" ⟨.dir, false, false, false, false, false⟩ "x.tmp\\y" = shows "94" ∧
    colorOf "di=94:di *.tmp=90" ⟨.file, false, false, false, false, false⟩ "y.tmp" = .plain := by decide +kernel

-- The second.
example : colorOf "di=93:ro ex=1;32:ex=1:ro=32" ⟨.file, false, false, false, true, false⟩ "a.exe" = shows "1;32" ∧
    colorOf "di=93:ro ex=1;32:ex=1:ro=32" ⟨.file, false, false, false, false, false⟩ "a.exe" = shows "1" ∧
    colorOf "di=93:ro ex=1;32:ex=1:ro=32" ⟨.file, false, false, false, true, false⟩ "a.txt" = shows "32" ∧
    colorOf "di=93:ro ex=1;32:ex=1:ro=32" ⟨.dir, false, false, false, true, false⟩ "a" = shows "93" := by decide +kernel

/-- The rules of the examples below, as written and as meant: ` di *.tmp=90:not "a b" ex=3\x31:ro=32:`. -/
def exItems : List Item :=
  [.rule [.ty false .di, .pat false (bs "*.tmp")] (bs "90"), .rule [.pat true (bs "a b"), .ty false .ex] (bs "31"),
   .rule [.ty false .ro] (bs "32"), .pfx (bs "4")]

def chars (s : String) : Spec.Word := (bs s).map .ch

def exText : Text := bs " di *.tmp=90:not \"a b\"  EX=3\\x31:ro=32:readline-colored-completion-prefix=4:"

theorem ok_chars {s : String} {stops : List Nat} (h : ∀ c ∈ bs s, c ≠ 0 ∧ c ≠ 58 ∧ c ≠ 34 ∧ c ≠ 92 ∧ c ≠ 94 ∧ c ∉ stops) :
    ∀ p ∈ chars s, p.ok stops := by
  intro p hp
  obtain ⟨c, hc, rfl⟩ := List.mem_map.1 hp
  exact h c hc

theorem word_chars {s : String} (h : ∀ c ∈ bs s, c ≠ 0 ∧ c ≠ 58 ∧ c ≠ 34 ∧ c ≠ 92 ∧ c ≠ 94 ∧ c ∉ [32, 9, 13, 10, 61])
    (h1 : chars s ≠ []) (h2 : Spec.valueOf (chars s) ≠ []) : Spec.Word.ok (chars s) := ⟨h1, ok_chars h, h2⟩

theorem plain_chars (s : String) : Spec.plain (chars s) := by
  intro p hp
  obtain ⟨c, _, rfl⟩ := List.mem_map.1 hp
  rfl

theorem isColor_chars {s : String} (h : ∀ c ∈ bs s, c ≠ 0 ∧ c ≠ 58 ∧ c ≠ 34 ∧ c ≠ 92 ∧ c ≠ 94 ∧ c ∉ ([] : List Nat))
    (h1 : Spec.textOf (chars s) = bs s) (h2 : Spec.valueOf (chars s) = bs s) : Spec.IsColor (bs s) (bs s) :=
  ⟨chars s, ok_chars h, h1, h2⟩

theorem exWritten : Written exItems exText := by
  have h1 : Spec.ItemText (.rule [.ty false .di, .pat false (bs "*.tmp")] (bs "90")) (bs " di *.tmp=90") := by
    have hs : Spec.Says [chars "di", chars "*.tmp"] [.ty false .di, .pat false (Spec.valueOf (chars "*.tmp"))] :=
      .ty .di (plain_chars _) (by unfold Spec.isWord; decide +kernel)
        (.pat (by unfold Spec.isWord; decide +kernel)
          (fun _ => ⟨by intro t; unfold Spec.isWord; cases t <;> decide +kernel, by unfold Spec.isWord; decide +kernel⟩) .nil)
    have hi := Spec.ItemText.rule (color := bs "90") (v := bs "90") 1 0 hs
      (by intro w hw
          rcases List.mem_cons.1 hw with h | h
          · subst h; exact word_chars (by decide +kernel) (by decide +kernel) (by decide +kernel)
          · rw [List.mem_singleton.1 h]; exact word_chars (by decide +kernel) (by decide +kernel) (by decide +kernel))
      (.cons _ 0 (.one _)) (by decide +kernel) (by decide +kernel) (by decide +kernel) (by decide +kernel) (by decide +kernel)
      (isColor_chars (by decide +kernel) (by decide +kernel) (by decide +kernel))
    exact (show Spec.valueOf (chars "*.tmp") = bs "*.tmp" by decide +kernel) ▸
      (show Spec.blanks 1 ++ (Spec.textOf (chars "di") ++ List.replicate (0 + 1) 32 ++ Spec.textOf (chars "*.tmp")) ++ Spec.blanks 0 ++
        61 :: bs "90" = bs " di *.tmp=90" by decide +kernel) ▸ hi
  have h2 : Spec.ItemText (.rule [.pat true (bs "a b"), .ty false .ex] (bs "31")) (bs "not \"a b\"  EX=3\\x31") := by
    have hs : Spec.Says [chars "not", [.quoted (bs "a b")], chars "EX"] [.pat true (Spec.valueOf [.quoted (bs "a b")]), .ty false .ex] :=
      .notPat (by unfold Spec.isWord; decide +kernel) (by unfold Spec.isWord; decide +kernel)
        (fun h => absurd (h _ List.mem_cons_self) (by decide))
        (.ty .ex (plain_chars _) (by unfold Spec.isWord; decide +kernel) .nil)
    have hc : Spec.IsColor (bs "31") (bs "3\\x31") :=
      ⟨[.ch 51, .hex false false [(false, 3), (false, 1)]], by
        intro p hp
        rcases List.mem_cons.1 hp with h | h
        · subst h; exact ⟨by decide, by decide, by decide, by decide, by decide, by decide⟩
        · rw [List.mem_singleton.1 h]; exact ⟨rfl, by decide, by decide, by decide, by decide⟩, by decide +kernel, by decide +kernel⟩
    have hi := Spec.ItemText.rule (color := bs "31") (v := bs "3\\x31") 0 0 hs
      (by intro w hw
          rcases List.mem_cons.1 hw with h | h
          · subst h; exact word_chars (by decide +kernel) (by decide +kernel) (by decide +kernel)
          rcases List.mem_cons.1 h with h | h
          · subst h
            exact ⟨by decide, by intro p hp; rw [List.mem_singleton.1 hp]; exact ⟨by decide +kernel, by decide +kernel⟩, by decide +kernel⟩
          · rw [List.mem_singleton.1 h]; exact word_chars (by decide +kernel) (by decide +kernel) (by decide +kernel))
      (.cons _ 0 (.cons _ 1 (.one _))) (by decide +kernel) (by decide +kernel) (by decide +kernel) (by decide +kernel) (by decide +kernel) hc
    exact (show Spec.valueOf [.quoted (bs "a b")] = bs "a b" by decide +kernel) ▸
      (show Spec.blanks 0 ++ (Spec.textOf (chars "not") ++ List.replicate (0 + 1) 32 ++ (Spec.textOf [.quoted (bs "a b")] ++
        List.replicate (1 + 1) 32 ++ Spec.textOf (chars "EX"))) ++ Spec.blanks 0 ++ 61 :: bs "3\\x31" = bs "not \"a b\"  EX=3\\x31"
        by decide +kernel) ▸ hi
  have h3 : Spec.ItemText (.rule [.ty false .ro] (bs "32")) (bs "ro=32") := by
    have hs : Spec.Says [chars "ro"] [.ty false .ro] := .ty .ro (plain_chars _) (by unfold Spec.isWord; decide +kernel) .nil
    have hi := Spec.ItemText.rule (color := bs "32") (v := bs "32") 0 0 hs
      (by intro w hw; rw [List.mem_singleton.1 hw]; exact word_chars (by decide +kernel) (by decide +kernel) (by decide +kernel))
      (.one _) (by decide +kernel) (by decide +kernel) (by decide +kernel) (by decide +kernel) (by decide +kernel)
      (isColor_chars (by decide +kernel) (by decide +kernel) (by decide +kernel))
    exact (show Spec.blanks 0 ++ Spec.textOf (chars "ro") ++ Spec.blanks 0 ++ 61 :: bs "32" = bs "ro=32" by decide +kernel) ▸ hi
  have h4 : Spec.ItemText (.pfx (bs "4")) (bs "readline-colored-completion-prefix=4") := by
    have hi := Spec.ItemText.pfx (color := bs "4") (v := bs "4") 0 0 (isColor_chars (by decide +kernel) (by decide +kernel) (by decide +kernel))
    exact (show Spec.blanks 0 ++ Spec.prefixWord ++ Spec.blanks 0 ++ 61 :: bs "4" = bs "readline-colored-completion-prefix=4" by decide +kernel) ▸ hi
  have := Written.cons h1 (.cons h2 (.cons h3 (.cons h4 .nil)))
  exact (show bs " di *.tmp=90" ++ 58 :: (bs "not \"a b\"  EX=3\\x31" ++ 58 :: (bs "ro=32" ++ 58 ::
    (bs "readline-colored-completion-prefix=4" ++ 58 :: []))) = exText by decide +kernel) ▸ this

theorem exUsable : ∀ i ∈ exItems, Usable i := by
  intro i hi
  simp only [exItems, List.mem_cons, List.not_mem_nil, or_false] at hi
  have key : ∀ {cs : List Cond} {c : Text}, (Spec.active cs ≠ [] ∨ Spec.pats cs ≠ []) →
      (∀ x ∈ cs, ∀ n t, x = Cond.ty n t → t ≠ .mi ∧ t ≠ .orphan ∧ t ≠ .so) → (∀ t ∈ Spec.active cs, t.2 ≠ .no) → Usable (.rule cs c) :=
    fun h1 h2 h3 => ⟨h1, fun t ht => ht.elim (fun h => h2 _ h _ _ rfl) (fun h => h2 _ h _ _ rfl), fun _ => h3⟩
  rcases hi with h | h | h | h <;> subst h
  · exact key (.inl (by decide)) (by
      intro x hx n t he
      simp only [List.mem_cons, List.not_mem_nil, or_false] at hx
      rcases hx with h | h <;> subst h <;> cases he
      exact ⟨by decide, by decide, by decide⟩) (by decide)
  · exact key (.inl (by decide)) (by
      intro x hx n t he
      simp only [List.mem_cons, List.not_mem_nil, or_false] at hx
      rcases hx with h | h <;> subst h <;> cases he
      exact ⟨by decide, by decide, by decide⟩) (by decide)
  · exact key (.inl (by decide)) (by
      intro x hx n t he
      simp only [List.mem_cons, List.not_mem_nil, or_false] at hx
      subst hx; cases he
      exact ⟨by decide, by decide, by decide⟩) (by decide)
  · exact trivial

/-- `C57_color` used: a directory `x.tmp` has the colour 90 by the rules above. -/
example : ∃ name c, NameOf (bs "d\\x.tmp") name ∧
    ColorIs star (Spec.actual [] none none) exItems (Spec.has true ⟨true, false, false, false, false, false⟩) .di name c ∧
    getMatchColor env false (parse (initColors [] none none) exText) ⟨.dir, false, false, false, false, false⟩ (bs "d\\x.tmp\\") = outOf none c := by
  obtain ⟨n, c, h1, h2, h3⟩ := C57_color env false exWritten exUsable (by decide) [] none none (t := ⟨.dir, false, false, false, false, false⟩) (.inr rfl)
    (bs "d\\x.tmp\\") (en := ⟨true, false, false, false, false, false⟩) rfl (tg := true) (by decide +kernel)
  refine ⟨n, c, ?_, h2, ?_⟩
  · rw [show env.pastDrive (Spec.bare true ⟨true, false, false, false, false, false⟩ (bs "d\\x.tmp\\")) = bs "d\\x.tmp" by decide +kernel] at h1
    exact h1
  · rw [h3, show typeColor (Spec.actual [] none none) exItems .no = none by decide +kernel]

example : getMatchColor env false (parse (initColors [] none none) exText) ⟨.dir, false, false, false, false, false⟩ (bs "d\\x.tmp\\") = shows "90" ∧
    getMatchColor env false (parse (initColors [] none none) exText) ⟨.file, false, false, false, true, false⟩ (bs "d\\x.exe") = shows "31" ∧
    getMatchColor env false (parse (initColors [] none none) exText) ⟨.word, false, false, false, false, false⟩ (bs "x.tmp") = .plain := by decide +kernel

example : ∃ name c, NameOf (bs "x.tmp") name ∧ ColorIs star (Spec.actual [] none none) exItems (fun _ => false) .no name c ∧
    getMatchColor env false (parse (initColors [] none none) exText) ⟨.word, false, false, false, false, false⟩ (bs "x.tmp") =
      outOf (typeColor (Spec.actual [] none none) exItems .no) c :=
  C57_word env false exWritten exUsable (by decide) [] none none (.inl rfl) (bs "x.tmp")

example : getMatchColor env false (parse (initColors [] none none) exText) ⟨.alias, false, false, false, false, false⟩ (bs "ls") = shows "2" :=
  C57_command env false exWritten exUsable (by decide) [] none none (bs "ls") (bs "2") (.inr ⟨rfl, rfl⟩)

example : completionPrefix (bs "7") (parse (initColors [] none none) exText) = bs "4" :=
  C57_prefix exWritten exUsable _ _

/-- A rule without a value does no harm to those before. -/
example : parse (initColors [] none none) (exText ++ bs ":di *.zip") = parse (initColors [] none none) exText :=
  C57_error exWritten exUsable (bad := bs "di *.zip")
    ((show Spec.textOf (chars "di *.zip") ++ [] = bs "di *.zip" by decide +kernel) ▸
      .noEq (chars "di *.zip") [] (ok_chars (by decide +kernel)) (.inl rfl)) _

example : Broken (bs "di \"*.zip=3") :=
  (show Spec.textOf (chars "di ") ++ 34 :: bs "*.zip=3" = bs "di \"*.zip=3" by decide +kernel) ▸
    .noEnd (chars "di ") (34 :: bs "*.zip=3") (ok_chars (by decide +kernel)) (.quote _ (by decide +kernel))

/-- Values that cannot be read, and that a rule before is not affected. -/
example : Broken (bs "di=3^ 1") ∧ parse (initColors [] none none) (exText ++ bs ":di=3\\") = parse (initColors [] none none) exText :=
  ⟨(show Spec.textOf (chars "di") ++ 61 :: (Spec.textOf (chars "3") ++ bs "^ 1") = bs "di=3^ 1" by decide +kernel) ▸
    .noValue (chars "di") (chars "3") (bs "^ 1") (ok_chars (by decide +kernel)) (ok_chars (by decide +kernel)) (.caretBad _ _ (by decide)),
   C57_error exWritten exUsable (bad := bs "di=3\\")
    ((show Spec.textOf (chars "di") ++ 61 :: (Spec.textOf (chars "3") ++ [92]) = bs "di=3\\" by decide +kernel) ▸
      .noValue (chars "di") (chars "3") [92] (ok_chars (by decide +kernel)) (ok_chars (by decide +kernel)) .backslash) _⟩

/-- Numbers of fewer digits: `\\33[` is written for ESC and `[`, `\\x9;` for a tab and `;`. -/
example : Spec.textOf [.octThen [3, 3] 91, .hexThen false false [(false, 9)] 59] = bs "\\33[\\x9;" ∧
    Spec.valueOf [.octThen [3, 3] 91, .hexThen false false [(false, 9)] 59] = [27, 91, 9, 59] ∧
    (∀ p ∈ [Spec.Piece.octThen [3, 3] 91, .hexThen false false [(false, 9)] 59], p.ok [32, 9, 13, 10, 61]) ∧
    (getToken false 32 0 (bs "\\33[\\x9;")).tok = [27, 91, 9, 59] := by
  refine ⟨by decide +kernel, by decide +kernel, ?_, by decide +kernel⟩
  intro p hp
  simp only [List.mem_cons, List.not_mem_nil, or_false] at hp
  rcases hp with rfl | rfl
  · exact ⟨.inr rfl, by decide, by decide, ⟨by decide, by decide, by decide, by decide, by decide, by decide⟩, by unfold Spec.isOct; decide⟩
  · exact ⟨by decide, by decide, by decide, by decide, ⟨by decide, by decide, by decide, by decide, by decide, by decide⟩, by unfold Spec.isHex; decide⟩

/-! ### Where the code differs from its documentation -/

/-- C57 violated: the rules for missing files, orphaned links and the prefix (`so`) do nothing. -/
theorem C57_types_violated : ∀ r ∈ ["mi=31", "or=31", "so=31"], ∀ c : Colors,
    parse c (bs r) = ⟨c, [], false, none⟩ := by
  intro r hr c
  simp only [List.mem_cons, List.not_mem_nil, or_false] at hr
  have key : ∀ {s : Text} {cur : Cur} {tok val : Text}, tokenAndValue s = some (tok, val, []) → s ≠ [] → tok ≠ [] → tok ≠ prefixName →
      conds (tok.length + 1) {} tok = some cur → cur.cflags = [] → cur.notCflags = [] → cur.patterns = [] →
      parse c s = ⟨c, [], false, none⟩ := by
    intro s cur tok val h1 h2 h3 h4 h5 h6 h7 h8
    unfold parse
    obtain ⟨x, y, rfl⟩ := List.exists_cons_of_ne_nil h2
    rw [parseLoop]
    simp only [h1, addItem, if_neg h3, if_neg h4, h5, addRule, h6, h7, h8]
    simp
    rfl
  rcases hr with h | h | h <;> subst h
  · exact key (tok := bs "mi") (val := bs "31") (cur := { numFlags := 1, rlind := some .mi }) (by decide +kernel) (by decide +kernel) (by decide +kernel)
      (by decide +kernel) (by decide +kernel) rfl rfl rfl
  · exact key (tok := bs "or") (val := bs "31") (cur := { numFlags := 1, rlind := some .orp }) (by decide +kernel) (by decide +kernel) (by decide +kernel)
      (by decide +kernel) (by decide +kernel) rfl rfl rfl
  · exact key (tok := bs "so") (val := bs "31") (cur := { numFlags := 1, rlind := some .so }) (by decide +kernel) (by decide +kernel) (by decide +kernel)
      (by decide +kernel) (by decide +kernel) rfl rfl rfl

/-- C57 violated: a quoted `"not"` is not taken as a pattern, though any quoted string should be: the rule `"not" *.c` is
used for files which are not `*.c`. -/
theorem C57_quoted_violated : colorOf "\"not\" *.c=31" ⟨.file, false, false, false, false, false⟩ "a.h" = shows "31" ∧
    colorOf "fi \"not\"=31" ⟨.file, false, false, false, false, false⟩ "not" = shows "31" ∧
    colorOf "fi \"not\"=31" ⟨.file, false, false, false, false, false⟩ "other" = shows "31" := by decide +kernel

/-- C57 violated: `no` with a pattern never fits, though `no` covers anything not covered by other types. -/
theorem C57_no_violated : colorOf "no *.c=31:no=32" ⟨.word, false, false, false, false, false⟩ "a.c" =
    .color (bs "\x1b[m\x1b[32m") := by decide +kernel

/-- C57 violated: a rule with only `any` is dropped, though it clears all types and so should fit everything. -/
theorem C57_any_violated : colorOf "any=31:fi=32" ⟨.file, false, false, false, false, false⟩ "a" = shows "32" ∧
    colorOf "any *=31:fi=32" ⟨.file, false, false, false, false, false⟩ "a" = shows "31" := by decide +kernel

/-- C57 violated: a rule ending with an escaped blank is lost. -/
theorem C57_blank_violated : colorOf "fi=32:*.a\\ =31" ⟨.file, false, false, false, false, false⟩ "x.a " = shows "32" ∧
    colorOf "fi=32:*.a\\_=31" ⟨.file, false, false, false, false, false⟩ "x.a " = shows "31" := by decide +kernel

/-- C57 violated: after an empty rule nothing is read any more. -/
theorem C57_empty_violated : colorOf "di=31::fi=32" ⟨.file, false, false, false, false, false⟩ "x" = .plain ∧
    colorOf "di=31:fi=32" ⟨.file, false, false, false, false, false⟩ "x" = shows "32" := by decide +kernel

/-- C57 violated: with a rule for files and none for hidden ones, a hidden file has no colour, though the rule `fi` fits it. -/
theorem C57_hidden_violated : colorOf "fi=31" ⟨.file, false, false, true, false, false⟩ "x" = .plain ∧
    colorOf "fi=31:di=32" ⟨.dir, false, false, true, false, false⟩ "x" = .plain ∧
    colorOf "fi=31" ⟨.file, false, false, false, false, false⟩ "x" = shows "31" := by decide +kernel

/-- C57 violated: a link to a directory, when links have a colour of their own, is not found by its name, because the
separator at its end is not removed. -/
theorem C57_link_violated : colorOf "ln=36:ln *.d=31" ⟨.dir, true, false, false, false, false⟩ "x.d\\" = shows "36" ∧
    colorOf "ln=36:ln *.d=31" ⟨.file, true, false, false, false, false⟩ "x.d" = shows "31" := by decide +kernel

/-- C57 violated: directories have the default `01;33`, documented as `01;34`. -/
theorem C57_default_violated : ∃ t, Spec.documented none none t ≠ Spec.actual [] none none t ∧
    colorOf "fi=31" ⟨.dir, false, false, false, false, false⟩ "x" = shows "01;33" :=
  ⟨.di, by decide +kernel, by decide +kernel⟩

/-- C57 violated: `[^a]*` is not read as the pattern it is (`^a` is taken for the control character 1). -/
theorem C57_class_violated : (parse (fun _ => none) (bs "[^a]*=31")).rules = [⟨[.file], [], [([91, 1, 93, 42], false)], bs "31"⟩] := by
  decide +kernel

end Clink.MatchColors
