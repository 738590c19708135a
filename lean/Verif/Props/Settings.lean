import Verif.Proof.SettingsMaps
import Verif.Props.Enum

/-! C25: the settings file. -/

namespace Clink.Settings

open Spec
open Color (bs)
open Color.Spec (Decimal Like)

/-- What is saved is loaded: known settings have their values again, and settings that are not known are kept with their comments. -/
theorem C25_reload {env : Env} (ok : AtoiOk env.atoi) {custom : Custom} {st st' : State} (h : StateOk env custom st) (hd : SameDecl st'.known st.known) :
    ∃ file st2, save st = some (file, st2) ∧ st2.known = st.known ∧ load env custom st' (some file) = ⟨st.known, strangers st⟩ :=
  reload ok h hd

/-- A file of any text is loaded as a state that can be saved. -/
theorem C25_load {env : Env} (ok : AtoiOk env.atoi) {custom : Custom} (hcu : CustomOk custom) {st : State} (hk : KnownOk env.lower st.known)
    {file : List Nat} (hf : Utf8 file) (hc : ColoursOk (load env custom st (some file)).known) : StateOk env custom (load env custom st (some file)) :=
  inv_state (load_inv ok hcu hk hf).1 hc

/-- Saving what was loaded and loading it again changes nothing, and settings that are not known are not lost. -/
theorem C25_idempotent {env : Env} (ok : AtoiOk env.atoi) {custom : Custom} (hcu : CustomOk custom) {st : State} (hk : KnownOk env.lower st.known)
    {file : List Nat} (hf : Utf8 file) (hc : ColoursOk (load env custom st (some file)).known) :
    ∃ file2 st2, save (load env custom st (some file)) = some (file2, st2) ∧ load env custom st (some file2) = load env custom st (some file) := by
  obtain ⟨h1, h2⟩ := load_inv ok hcu hk hf
  obtain ⟨file2, st2, g1, -, g2⟩ := reload ok (inv_state h1 hc) (st' := st) h2.symm
  refine ⟨file2, st2, g1, ?_⟩
  rw [g2, inv_strangers h1]

theorem load_entries {file : List Nat} {ls : List (List Nat)} {es : List (List Nat × List Nat × List Nat)} (hf : Utf8 file) (hl : Lines file ls)
    (hs : Says (Listing ls) [] ls es) (env : Env) (custom : Custom) (st : State) :
    load env custom st (some file) =
      (es.map fun e => (⟨e.1, autoupdate e.1 e.2.1, e.2.2⟩ : Entry)).foldl (addEntry env) ⟨st.known.map (·.reset env custom), []⟩ := by
  unfold load
  simp only
  rw [load_says hf hl hs]
  rfl

open Classical in
theorem fold_refused {env : Env} {s : Setting} (es : List (List Nat × List Nat × List Nat))
    (h : ∀ e ∈ es, Names s e.1 → ∀ w, Means e.1 e.2.1 w → parse env s.ty w = none) (t : Setting) (ht : t.name = s.name ∧ t.ty = s.ty) :
    (es.map fun e => (⟨e.1, autoupdate e.1 e.2.1, e.2.2⟩ : Entry)).foldl (fun s e => if Names s e.name then (s.set env e.value).1 else s) t = t := by
  induction es with
  | nil => rfl
  | cons e es ih =>
    rw [List.map_cons, List.foldl_cons]
    have : (if Names t e.1 then (t.set env (autoupdate e.1 e.2.1)).1 else t) = t := by
      split
      · rename_i hn
        unfold Setting.set
        rw [ht.2, h e (by simp) ?_ _ (means_exists _ _)]
        unfold Names at *
        rw [← ht.1]
        exact hn
      · rfl
    simp only
    rw [this]
    exact ih fun e he => h e (List.mem_cons_of_mem _ he)

open Classical in
/-- A known setting has the value of the last line for it that is accepted. -/
theorem C25_value {env : Env} {custom : Custom} {st : State} (hk : KnownOk env.lower st.known) {file : List Nat} {ls : List (List Nat)}
    {pre post : List (List Nat × List Nat × List Nat)} {n v w c : List Nat} (hf : Utf8 file) (hl : Lines file ls)
    (hs : Says (Listing ls) [] ls (pre ++ (n, v, c) :: post)) {i : Nat} {s : Setting} (hi : st.known[i]? = some s) (hn : Names s n) (hm : Means n v w)
    {x : Val} (hp : parse env s.ty w = some x) (hpost : ∀ e ∈ post, Names s e.1 → ∀ w, Means e.1 e.2.1 w → parse env s.ty w = none) :
    (load env custom st (some file)).known[i]? = some { s with val := x, save := true } := by
  rw [load_entries hf hl hs]
  have hdecl : SameDecl (st.known.map (·.reset env custom)) st.known := by
    unfold SameDecl
    rw [List.map_map]
    rfl
  have keep : ∀ (es : List Entry) (t : Setting), t.name = s.name ∧ t.desc = s.desc ∧ t.ty = s.ty →
      ((es.foldl (fun s e => if Names s e.name then (s.set env e.value).1 else s) t).name = s.name ∧
       (es.foldl (fun s e => if Names s e.name then (s.set env e.value).1 else s) t).desc = s.desc ∧
       (es.foldl (fun s e => if Names s e.name then (s.set env e.value).1 else s) t).ty = s.ty) := by
    intro es
    induction es with
    | nil => intro t h; exact h
    | cons e es ih =>
      intro t h
      refine ih _ ?_
      simp only
      split
      · unfold Setting.set
        split <;> exact h
      · exact h
  rw [fold_known (fun s hs => (hk.decl s hs).short) hk.differ _ hdecl (i := i) (s := s.reset env custom) (by rw [List.getElem?_map, hi]; rfl)]
  rw [List.map_append, List.foldl_append, List.map_cons, List.foldl_cons]
  have h1 := keep (pre.map fun e => (⟨e.1, autoupdate e.1 e.2.1, e.2.2⟩ : Entry)) (s.reset env custom) ⟨rfl, rfl, rfl⟩
  revert h1
  generalize List.foldl _ _ (pre.map _) = t
  rintro ⟨h1, h2, h3⟩
  rw [if_pos (show Names t n by unfold Names at *; rw [h1]; exact hn), means_iff hm]
  have hset : (t.set env w).1 = { s with val := x, save := true } := by
    unfold Setting.set
    rw [h3, hp]
    obtain ⟨t1, t2, t3, t4, t5⟩ := t
    cases h1; cases h2; cases h3
    rfl
  rw [hset, fold_refused (s := s) post hpost { s with val := x, save := true } ⟨rfl, rfl⟩]

/-- A known setting without such a line has its default. -/
theorem C25_default {env : Env} {custom : Custom} {st : State} (hk : KnownOk env.lower st.known) {file : List Nat} {ls : List (List Nat)}
    {es : List (List Nat × List Nat × List Nat)} (hf : Utf8 file) (hl : Lines file ls) (hs : Says (Listing ls) [] ls es) {i : Nat} {s : Setting}
    (hi : st.known[i]? = some s) (hes : ∀ e ∈ es, Names s e.1 → ∀ w, Means e.1 e.2.1 w → parse env s.ty w = none) :
    (load env custom st (some file)).known[i]? = some (s.reset env custom) := by
  rw [load_entries hf hl hs]
  have hdecl : SameDecl (st.known.map (·.reset env custom)) st.known := by
    unfold SameDecl
    rw [List.map_map]
    rfl
  rw [fold_known (fun s hs => (hk.decl s hs).short) hk.differ _ hdecl (i := i) (s := s.reset env custom) (by rw [List.getElem?_map, hi]; rfl)]
  congr 1
  exact fold_refused (s := s) es hes _ ⟨rfl, rfl⟩

/-- Of a setting that is not known, the first line is kept with the comment before it. -/
theorem C25_unknown {env : Env} {custom : Custom} {st : State} {file : List Nat} {ls : List (List Nat)}
    {es : List (List Nat × List Nat × List Nat)} (hf : Utf8 file) (hl : Lines file ls) (hs : Says (Listing ls) [] ls es) (l : Loaded) :
    l ∈ (load env custom st (some file)).loaded ↔ Unknown st.known l.name ∧ l.saved = false ∧
      ∃ pre v post, es = pre ++ (l.name, v, l.comment) :: post ∧ Means l.name v l.value ∧ ∀ e ∈ pre, e.1 ≠ l.name := by
  rw [load_entries hf hl hs]
  have hdecl : SameDecl (st.known.map (·.reset env custom)) st.known := by
    unfold SameDecl
    rw [List.map_map]
    rfl
  rw [fold_loaded _ hdecl List.Pairwise.nil]
  constructor
  · rintro (h | ⟨-, h2, h3, pre, post, he, hpre⟩)
    · cases h
    · refine ⟨h2, h3, ?_⟩
      obtain ⟨p, q, rfl, hp, hq⟩ := List.map_eq_append_iff.1 he
      obtain ⟨a, q, rfl, ha, rfl⟩ := List.map_eq_cons_iff.1 hq
      obtain ⟨n, v, c⟩ := a
      simp only [Entry.mk.injEq] at ha
      obtain ⟨rfl, hv, rfl⟩ := ha
      refine ⟨p, v, q, rfl, ?_, ?_⟩
      · rw [← hv]
        exact means_exists _ _
      · intro e hep
        refine hpre ⟨e.1, autoupdate e.1 e.2.1, e.2.2⟩ ?_
        rw [← hp]
        exact List.mem_map_of_mem (f := fun e : List Nat × List Nat × List Nat => (⟨e.1, autoupdate e.1 e.2.1, e.2.2⟩ : Entry)) hep
  · rintro ⟨h2, h3, pre, v, post, rfl, hm, hpre⟩
    refine .inr ⟨by simp, h2, h3, pre.map (fun e => ⟨e.1, autoupdate e.1 e.2.1, e.2.2⟩), post.map (fun e => ⟨e.1, autoupdate e.1 e.2.1, e.2.2⟩), ?_, ?_⟩
    · rw [List.map_append, List.map_cons, means_iff hm]
    · intro x hx
      obtain ⟨e, he, rfl⟩ := List.mem_map.1 hx
      exact hpre e he

/-- Every text has lines, and they say something. -/
theorem C25_says (file : List Nat) : ∃ ls es, Lines file ls ∧ Says (Listing ls) [] ls es := by
  obtain ⟨ls, hl⟩ := lines_exists file
  obtain ⟨es, he⟩ := says_exists (Listing ls) [] ls
  exact ⟨ls, es, hl, he⟩

/-- A setting that is set keeps its value when settings are saved and loaded. -/
theorem C25_set {env : Env} (ok : AtoiOk env.atoi) {custom : Custom} {st st' : State} (h : StateOk env custom st) (hk : KnownOk env.lower st.known)
    (hd : SameDecl st'.known st.known) {pre post : List Setting} {s : Setting} (hst : st.known = pre ++ s :: post) {name value : List Nat} {v : Val}
    (hn : SameName s.name name) (hv : ValueOk value) (hp : parse env s.ty value = some v) (hc : ∀ d, s.ty = .color d → ∃ code, v = .text code ∧ ColourOk code)
    (comment : Option (List Nat)) :
    ∃ st1 file st2, setSetting env st name value comment = (st1, true) ∧ save st1 = some (file, st2) ∧
      load env custom st' (some file) = ⟨pre ++ { s with val := v, save := true } :: post, strangers st⟩ := by
  have hlt : ∀ x ∈ pre, ¬ SameName x.name name := by
    intro x hx hxn
    have := hk.differ
    rw [hst] at this
    refine (List.pairwise_append.1 this).2.2 x hx s (by simp) ?_
    rw [sameName_iff] at *
    unfold same at *
    simp only [beq_iff_eq] at *
    rw [hxn, hn]
  have hi : findIdx st.known name = some pre.length := by rw [hst]; exact findIdx_at hlt hn
  have hg : st.known[pre.length]? = some s := by rw [hst]; simp
  have hm : s ∈ st.known := List.mem_of_getElem? hg
  have hset : s.set env value = ({ s with val := v, save := true }, true) := by
    unfold Setting.set
    rw [hp]
  have h1 : setSetting env st name value comment = (⟨pre ++ { s with val := v, save := true } :: post, st.loaded⟩, true) := by
    unfold setSetting
    simp only [hi, hg, hset]
    rw [hst]
    simp
  obtain ⟨k1, k2⟩ := known_set hk hg (t := { s with val := v, save := true }) rfl
  have he : st.known.set pre.length { s with val := v, save := true } = pre ++ { s with val := v, save := true } :: post := by
    rw [hst]; simp
  rw [he] at k1 k2
  have hok : StateOk env custom ⟨pre ++ { s with val := v, save := true } :: post, st.loaded⟩ := by
    have hmem : ∀ x ∈ pre ++ { s with val := v, save := true } :: post, x = { s with val := v, save := true } ∨ x ∈ st.known := by
      intro x hx
      rw [hst]
      simp only [List.mem_append, List.mem_cons] at hx ⊢
      rcases hx with hx | hx | hx
      · exact .inr (.inl hx)
      · exact .inl hx
      · exact .inr (.inr (.inr hx))
    refine ⟨k1.decl, k1.differ, ?_, ?_, ?_, h.sorted⟩
    · intro x hx hsv
      rcases hmem x hx with rfl | hx
      · by_cases hcol : ∃ d, s.ty = .color d
        · obtain ⟨d, hd⟩ := hcol
          obtain ⟨code, rfl, g⟩ := hc d hd
          show ValOk env.lower s.ty (.text code)
          rw [hd]
          exact .color g
        · exact parse_ok ok (hk.enum s hm) (fun d hd => hcol ⟨d, hd⟩) hv hp
      · exact h.saved x hx hsv
    · intro x hx hsv
      rcases hmem x hx with rfl | hx
      · cases hsv
      · exact h.unsaved x hx hsv
    · intro l hl
      rcases h.extra l hl with ⟨t, ht, hte⟩ | ⟨g1, g2⟩
      · left
        have : t.name ∈ (pre ++ { s with val := v, save := true } :: post).map (·.name) := by rw [k2]; exact List.mem_map_of_mem ht
        obtain ⟨t', ht', he'⟩ := List.mem_map.1 this
        exact ⟨t', ht', he'.trans hte⟩
      · exact .inr ⟨g1, extra_names k2.symm g2⟩
  have hdecl : SameDecl st'.known (pre ++ { s with val := v, save := true } :: post) := by
    rw [hst] at hd
    unfold SameDecl at *
    rw [hd]
    simp
  obtain ⟨file, st2, g1, -, g2⟩ := reload ok hok hdecl
  refine ⟨_, file, st2, h1, g1, ?_⟩
  rw [g2]
  congr 1
  unfold strangers
  simp only [hst]
  congr 1
  funext l
  simp

/-! ### Where settings are lost -/

def sampleKnown : List Setting :=
  [⟨bs "a.bool", bs "A", .bool true, .num 1, false⟩, ⟨bs "b.int", bs "B", .int 7, .num 7, false⟩, ⟨bs "c.str", bs "C", .str [], .text [], false⟩,
   ⟨bs "d.enum", bs "D", .enum (bs "off,on,auto") 1, .num 1, false⟩, ⟨bs "e.color", bs "E", .color (bs "bold"), .text (bs "0;1"), false⟩]

def sampleState : State := ⟨sampleKnown, []⟩

/-- A value that is refused is lost when settings are saved. -/
theorem C25_refused : ∃ file st2, Utf8 file ∧ loadInternal file = [⟨bs "b.int", bs "many", []⟩] ∧
    save (load sampleEnv (fun _ => none) sampleState (some file)) = some ([], st2) :=
  ⟨bs "b.int = many", ⟨sampleKnown, []⟩, utf8_ascii (by decide), by decide +kernel, by
    have : ((save (load sampleEnv (fun _ => none) sampleState (some (bs "b.int = many")))).map fun r => (r.1, r.2.known, r.2.loaded)) = some ([], sampleKnown, []) := by
      decide +kernel
    obtain ⟨⟨f, k, l⟩, h1, h2⟩ := Option.map_eq_some_iff.1 this
    rw [h1]
    simp only [Prod.mk.injEq] at h2
    obtain ⟨rfl, rfl, rfl⟩ := h2
    rfl⟩

/-- A blank at the beginning of a value is lost. -/
theorem C25_blank : ∃ file, ((save (setSetting sampleEnv sampleState (bs "c.str") (bs " x") none).1).map (·.1)) = some file ∧
    ((load sampleEnv (fun _ => none) sampleState (some file)).known.map (·.val))[2]? = some (.text (bs "x")) := by
  refine ⟨_, rfl, ?_⟩
  decide +kernel

/-- The end of a line in a value makes another setting of it. -/
theorem C25_newline : ∃ file, ((save (setSetting sampleEnv sampleState (bs "c.str") (bs "x\nb.int = 9") none).1).map (·.1)) = some file ∧
    ((load sampleEnv (fun _ => none) sampleState (some file)).known.map (·.val))[1]? = some (.num 9) ∧
    ((load sampleEnv (fun _ => none) sampleState (some file)).known.map (·.val))[2]? = some (.text (bs "x")) := by
  refine ⟨_, rfl, ?_, ?_⟩ <;> decide +kernel

/-- The flags of settings that were saved are not cleared: a setting that a script adds and that is then no longer known is lost by
saving twice. -/
theorem C25_lost : ∃ (file file2 file3 : List Nat) (st2 : State),
    (save (register sampleEnv (fun _ => none) (load sampleEnv (fun _ => none) ⟨[], []⟩ (some file)) (bs "my.color") (bs "M") (.str []))).map (fun r => (r.1, r.2.known, r.2.loaded)) =
      some (file2, st2.known, st2.loaded) ∧
    (loadInternal file2).map (fun e => (e.name, e.value)) = [(bs "my.color", bs "red")] ∧
    (save (unregister st2 (bs "my.color"))).map (·.1) = some file3 ∧ file3 = [] ∧
    (load sampleEnv (fun _ => none) ⟨[], []⟩ (some file)).loaded.map (fun l => (l.name, l.value)) = [(bs "my.color", bs "red")] := by
  refine ⟨bs "my.color = red", textMode (bs "# name: M\n# type: string\nmy.color = red\n\n"), [], ⟨[⟨bs "my.color", bs "M", .str [], .text (bs "red"), true⟩], [⟨bs "my.color", [], bs "red", true⟩]⟩, ?_, ?_, ?_, rfl, ?_⟩
  all_goals decide +kernel

/-! ### Examples -/

theorem sample_options : Options (bs "off,on,auto") [bs "off", bs "on", bs "auto"] :=
  .more (w := bs "off") (by decide) (.more (w := bs "on") (by decide) (.last (w := bs "auto") (by decide) (by decide)))

theorem head_ok {o : Option Nat} (h : 32 < o.getD 65) : ∀ c, o = some c → ¬ Space c := by
  rintro c rfl
  unfold Space
  simp only [Option.getD_some] at h
  omega

theorem line_ascii {l : List Nat} (h : ∀ c ∈ l, 0 < c ∧ c < 128) (h1 : 10 ∉ l) (h2 : 13 ∉ l) : LineOk l := ⟨utf8_ascii h, h1, h2⟩

theorem sample_names : NamesOk sampleEnv.lower [bs "off", bs "on", bs "auto"] where
  count := by decide
  differ i j a b ha hb h := by
    rw [← matchOption_iff sampleEnv] at h
    obtain ⟨hi, rfl⟩ := List.getElem?_eq_some_iff.1 ha
    obtain ⟨hj, rfl⟩ := List.getElem?_eq_some_iff.1 hb
    have key : ∀ (i j : Nat) (hi : i < [bs "off", bs "on", bs "auto"].length) (hj : j < [bs "off", bs "on", bs "auto"].length),
        matchOption sampleEnv [bs "off", bs "on", bs "auto"][i] [bs "off", bs "on", bs "auto"][j] = true → i = j := by
      intro i j hi hj
      match i, j, hi, hj with
      | 0, 0, _, _ | 1, 1, _, _ | 2, 2, _, _ => exact fun _ => rfl
      | 0, 1, _, _ => exact fun h => absurd h (by decide +kernel : ¬ matchOption sampleEnv (bs "off") (bs "on") = true)
      | 0, 2, _, _ => exact fun h => absurd h (by decide +kernel : ¬ matchOption sampleEnv (bs "off") (bs "auto") = true)
      | 1, 0, _, _ => exact fun h => absurd h (by decide +kernel : ¬ matchOption sampleEnv (bs "on") (bs "off") = true)
      | 1, 2, _, _ => exact fun h => absurd h (by decide +kernel : ¬ matchOption sampleEnv (bs "on") (bs "auto") = true)
      | 2, 0, _, _ => exact fun h => absurd h (by decide +kernel : ¬ matchOption sampleEnv (bs "auto") (bs "off") = true)
      | 2, 1, _, _ => exact fun h => absurd h (by decide +kernel : ¬ matchOption sampleEnv (bs "auto") (bs "on") = true)
    exact key i j hi hj h
  number i j a ha hd hj := by
    exfalso
    have hm : a ∈ [bs "off", bs "on", bs "auto"] := List.mem_of_getElem? ha
    have := hd.2.1
    simp only [List.mem_cons, List.not_mem_nil, or_false] at hm
    rcases hm with rfl | rfl | rfl
    · have := this 111 (by decide); omega
    · have := this 111 (by decide); omega
    · have := this 97 (by decide); omega
  values a ha := by
    simp only [List.mem_cons, List.not_mem_nil, or_false] at ha
    rcases ha with rfl | rfl | rfl <;>
      exact ⟨line_ascii (by decide) (by decide) (by decide), head_ok (by decide)⟩

theorem sample_known : KnownOk sampleEnv.lower sampleKnown where
  decl s hs := by
    simp only [sampleKnown, List.mem_cons, List.not_mem_nil, or_false] at hs
    rcases hs with rfl | rfl | rfl | rfl | rfl <;>
    · refine ⟨⟨⟨line_ascii (by decide) (by decide) (by decide), ?_⟩, ?_, by decide, by decide⟩, by decide, line_ascii (by decide) (by decide) (by decide), ?_, ?_⟩
      · exact head_ok (by decide)
      · exact head_ok (by decide)
      · intro d hd
        cases hd <;> decide +kernel
      · exact fun h => absurd h.1 (by decide)
  enum s hs o d ho := by
    simp only [sampleKnown, List.mem_cons, List.not_mem_nil, or_false] at hs
    rcases hs with rfl | rfl | rfl | rfl | rfl <;> cases ho
    exact ⟨_, sample_options, sample_names, line_ascii (by decide) (by decide) (by decide)⟩
  differ := by
    have key : ∀ a b : List Nat, same a b = false → ¬ SameName a b := by
      intro a b h hs
      rw [sameName_iff.1 hs] at h
      cases h
    have : sampleKnown.Pairwise fun s t => same s.name t.name = false := by decide +kernel
    exact this.imp fun h => key _ _ h

/-- A settings file. -/
def sampleFile : List Nat :=
  bs "# mine" ++ 13 :: 10 :: (bs "  X.y = 1 " ++ 13 :: 10 :: (bs "a.bool = maybe" ++ 13 :: 10 :: (bs "A.BOOL=off" ++ 13 :: 10 :: 10 :: (bs "b.int = 5" ++ 10 ::
    (bs "b.int = x" ++ 10 :: (bs "# old" ++ 10 :: (bs "X.y = 2" ++ 10 :: (bs "d.enum =auto" ++ 10 :: 10 :: (bs "e.color = bright red" ++ [10])))))))))

def sampleLines : List (List Nat) :=
  [bs "# mine", bs "  X.y = 1 ", bs "a.bool = maybe", bs "A.BOOL=off", bs "b.int = 5", bs "b.int = x", bs "# old", bs "X.y = 2", bs "d.enum =auto",
   bs "e.color = bright red"]

def sampleEntries : List (List Nat × List Nat × List Nat) :=
  [(bs "X.y", bs "1 ", bs "# mine\n"), (bs "a.bool", bs "maybe", []), (bs "A.BOOL", bs "off", []), (bs "b.int", bs "5", []), (bs "b.int", bs "x", []),
   (bs "X.y", bs "2", bs "# old\n"), (bs "d.enum", bs "auto", []), (bs "e.color", bs "bright red", [])]

theorem sample_lines : Lines sampleFile sampleLines := by
  have line : ∀ {w t : List Nat} {ls : List (List Nat)}, w ≠ [] → 10 ∉ w → 13 ∉ w → Lines t ls → Lines (w ++ 10 :: t) (w :: ls) :=
    fun h1 h2 h3 h => .line h1 h2 h3 (fun c hc => by cases hc; exact .inl rfl) (.brk (.inl rfl) h)
  have crlf : ∀ {w t : List Nat} {ls : List (List Nat)}, w ≠ [] → 10 ∉ w → 13 ∉ w → Lines t ls → Lines (w ++ 13 :: 10 :: t) (w :: ls) :=
    fun h1 h2 h3 h => .line h1 h2 h3 (fun c hc => by cases hc; exact .inr rfl) (.brk (.inr rfl) (.brk (.inl rfl) h))
  refine crlf (w := bs "# mine") (by decide) (by decide) (by decide) ?_
  refine crlf (w := bs "  X.y = 1 ") (by decide) (by decide) (by decide) ?_
  refine crlf (w := bs "a.bool = maybe") (by decide) (by decide) (by decide) ?_
  refine crlf (w := bs "A.BOOL=off") (by decide) (by decide) (by decide) ?_
  refine .brk (.inl rfl) ?_
  refine line (w := bs "b.int = 5") (by decide) (by decide) (by decide) ?_
  refine line (w := bs "b.int = x") (by decide) (by decide) (by decide) ?_
  refine line (w := bs "# old") (by decide) (by decide) (by decide) ?_
  refine line (w := bs "X.y = 2") (by decide) (by decide) (by decide) ?_
  refine line (w := bs "d.enum =auto") (by decide) (by decide) (by decide) ?_
  refine .brk (.inl rfl) ?_
  exact line (w := bs "e.color = bright red") (by decide) (by decide) (by decide) .nil

theorem sample_says : Says (Listing sampleLines) [] sampleLines sampleEntries := by
  have as : ∀ {a b c n v l : List Nat}, l = a ++ n ++ b ++ 61 :: c ++ v → (∀ x ∈ a ++ b ++ c, x = 32) → 61 ∉ n ++ b → n ≠ [] →
      35 < n.head?.getD 65 → 32 < n.getLast?.getD 65 → 32 < v.head?.getD 65 →
      Assigns 61 l n v := by
    intro a b c n v l hl hb h61 hne h1 h2 h3
    subst hl
    refine .mk (fun x hx => .inr (hb x (by simp [hx]))) (fun x hx => .inr (hb x (by simp [hx]))) (fun x hx => .inr (hb x (by simp [hx]))) h61 ?_ (fun h => absurd h hne) ?_ ?_
    · intro x hx; rw [hx, Option.getD_some] at h1; unfold Space; omega
    · exact head_ok h2
    · exact head_ok h3
  refine .comment (a := []) (t := bs " mine") (by intro c hc; cases hc) ?_
  refine .assign (as (a := bs "  ") (b := bs " ") (c := bs " ") (n := bs "X.y") (v := bs "1 ") (by decide) (by decide) (by decide) (by decide) (by decide) (by decide) (by decide)) ?_
  refine .assign (as (a := []) (b := bs " ") (c := bs " ") (n := bs "a.bool") (v := bs "maybe") (by decide) (by decide) (by decide) (by decide) (by decide) (by decide) (by decide)) ?_
  refine .assign (as (a := []) (b := []) (c := []) (n := bs "A.BOOL") (v := bs "off") (by decide) (by decide) (by decide) (by decide) (by decide) (by decide) (by decide)) ?_
  refine .assign (as (a := []) (b := bs " ") (c := bs " ") (n := bs "b.int") (v := bs "5") (by decide) (by decide) (by decide) (by decide) (by decide) (by decide) (by decide)) ?_
  refine .assign (as (a := []) (b := bs " ") (c := bs " ") (n := bs "b.int") (v := bs "x") (by decide) (by decide) (by decide) (by decide) (by decide) (by decide) (by decide)) ?_
  refine .comment (a := []) (t := bs " old") (by intro c hc; cases hc) ?_
  refine .assign (as (a := []) (b := bs " ") (c := bs " ") (n := bs "X.y") (v := bs "2") (by decide) (by decide) (by decide) (by decide) (by decide) (by decide) (by decide)) ?_
  refine .assign (as (a := []) (b := bs " ") (c := []) (n := bs "d.enum") (v := bs "auto") (by decide) (by decide) (by decide) (by decide) (by decide) (by decide) (by decide)) ?_
  exact .assign (as (a := []) (b := bs " ") (c := bs " ") (n := bs "e.color") (v := bs "bright red") (by decide) (by decide) (by decide) (by decide) (by decide) (by decide) (by decide)) .nil

theorem sample_utf8 : Utf8 sampleFile := utf8_ascii (by decide +kernel)

/-- What the sample file sets: the last accepted values, and the first line of the setting that is not known. -/
example : (load sampleEnv (fun _ => none) sampleState (some sampleFile)).known.map (fun s => (s.val, s.save)) =
      [(.num 0, true), (.num 5, true), (.text [], false), (.num 2, true), (.text (bs "0;91"), true)] ∧
    (load sampleEnv (fun _ => none) sampleState (some sampleFile)).loaded = [⟨bs "X.y", bs "# mine\n", bs "1 ", false⟩] := by
  refine ⟨?_, ?_⟩ <;> decide +kernel

/-- The same by `C25_value`: the line that is refused later does not count. -/
example : (load sampleEnv (fun _ => none) sampleState (some sampleFile)).known[1]? = some ⟨bs "b.int", bs "B", .int 7, .num 5, true⟩ := by
  have dec : ∀ a b : List Nat, same a b = false → ¬ SameName a b := by
    intro a b h hs
    rw [sameName_iff.1 hs] at h
    cases h
  have auto : ∀ n v : List Nat, n.length ≠ 16 → Means n v v := fun n v h => .other fun h2 => h (by have := h2.1.1; rw [this]; rfl)
  refine C25_value (st := sampleState) sample_known sample_utf8 sample_lines (pre := sampleEntries.take 3) (post := sampleEntries.drop 4) (n := bs "b.int") (v := bs "5") (c := [])
    sample_says (i := 1) rfl (.inl (sameName_refl _)) (auto _ _ (by decide)) (by decide +kernel) ?_
  intro e he
  have : e = (bs "b.int", bs "x", []) ∨ e = (bs "X.y", bs "2", bs "# old\n") ∨ e = (bs "d.enum", bs "auto", []) ∨ e = (bs "e.color", bs "bright red", []) := by
    simpa [sampleEntries] using he
  rcases this with rfl | rfl | rfl | rfl
  · intro _ w hw
    cases hw with
    | other => decide +kernel
    | no hn => exact absurd hn.1 (by decide)
    | yes hn => exact absurd hn.1 (by decide)
  all_goals
    rintro (h | h)
    · exact absurd h (dec _ _ (by decide))
    · exact absurd h.1 (by decide)

theorem sample_colours : ColoursOk (load sampleEnv (fun _ => none) sampleState (some sampleFile)).known := by
  have e : (load sampleEnv (fun _ => none) sampleState (some sampleFile)).known =
      [⟨bs "a.bool", bs "A", .bool true, .num 0, true⟩, ⟨bs "b.int", bs "B", .int 7, .num 5, true⟩, ⟨bs "c.str", bs "C", .str [], .text [], false⟩,
       ⟨bs "d.enum", bs "D", .enum (bs "off,on,auto") 1, .num 2, true⟩, ⟨bs "e.color", bs "E", .color (bs "bold"), .text (bs "0;91"), true⟩] := by
    decide +kernel
  rw [e]
  intro s hs d hd _
  simp only [List.mem_cons, List.not_mem_nil, or_false] at hs
  rcases hs with rfl | rfl | rfl | rfl | rfl <;> cases hd
  refine ⟨_, rfl, .described (v := bs "bright red") (by decide +kernel) ?_⟩
  intro w hw
  have : (Tok.tokens Utf.iter8 [32] (bs "bright red")).head? = some (bs "bright") := by decide +kernel
  rw [this] at hw
  cases hw
  rintro (h | h) <;> exact absurd h.1 (by decide)

/-- The state that is loaded can be saved; the unknown setting is kept. -/
example : StateOk sampleEnv (fun _ => none) (load sampleEnv (fun _ => none) sampleState (some sampleFile)) :=
  C25_load sampleAtoi_ok (fun n v h => by cases h) sample_known sample_utf8 sample_colours

/-- A setting is set, saved and loaded. -/
example : ∃ st1 file st2, setSetting sampleEnv sampleState (bs "B.INT") (bs "42") none = (st1, true) ∧ save st1 = some (file, st2) ∧
    load sampleEnv (fun _ => none) sampleState (some file) =
      ⟨sampleKnown.take 1 ++ ⟨bs "b.int", bs "B", .int 7, .num 42, true⟩ :: sampleKnown.drop 2, []⟩ := by
  have e : load sampleEnv (fun _ => none) sampleState (some []) = sampleState := by
    have h : ((load sampleEnv (fun _ => none) sampleState (some [])).known, (load sampleEnv (fun _ => none) sampleState (some [])).loaded) = (sampleKnown, []) := by
      decide +kernel
    revert h
    generalize load sampleEnv (fun _ => none) sampleState (some []) = st
    intro h
    cases st
    cases h
    rfl
  have ok : StateOk sampleEnv (fun _ => none) sampleState := by
    rw [← e]
    refine C25_load sampleAtoi_ok (fun n v h => by cases h) sample_known .nil ?_
    rw [e]
    intro s hs d _ h
    have : ∀ s ∈ sampleKnown, s.save = false := by decide
    rw [this s hs] at h
    cases h
  refine C25_set sampleAtoi_ok ok sample_known rfl (pre := sampleKnown.take 1) (post := sampleKnown.drop 2) (s := ⟨bs "b.int", bs "B", .int 7, .num 7, false⟩) rfl
    (sameName_iff.2 (by decide)) ⟨line_ascii (by decide) (by decide) (by decide), head_ok (by decide)⟩ (by decide +kernel) (fun d hd => by cases hd) none

end Clink.Settings
