import Verif.Proof.Sandbox
import Verif.Props.Settings

/-! C44: changing settings in the file from a session. -/

namespace Clink.Settings

open Spec
open Color (bs)

/-- The file is changed, and only by the given changes; so is what it says to the next session. -/
theorem C44_overlay {env : Env} (ok : AtoiOk env.atoi) {custom : Custom} (hcu : CustomOk custom) {st : State} (hk : KnownOk env.lower st.known)
    {file : List Nat} (hf : Utf8 file) (hc : ColoursOk (load env custom st (some file)).known) (hr : ColoursOk (st.known.map (·.reset env custom)))
    {overlay : List (List Nat × Option (List Nat))} (ho : ∀ o ∈ overlay, ChangeOk env st.known o) :
    ∃ file2 st2, sandboxedOverlay env custom st (some file) overlay = some (some file2, st2) ∧
      AllChange env custom overlay (load env custom st (some file)) (load env custom st (some file2)) := by
  obtain ⟨h1, h2⟩ := load_inv ok hcu hk hf
  have hr' : ColoursOk ((load env custom st (some file)).known.map (·.reset env custom)) := by
    rw [reset_all h2 hk.decl]
    exact hr
  have ho' : ∀ o ∈ overlay, ChangeOk env (load env custom st (some file)).known o := fun o h => changeOk_decl h2 (ho o h)
  obtain ⟨g1, g2, g3, g4⟩ := overlay_all ok hcu overlay h1 hc hr' ho'
  obtain ⟨file2, st2, k1, -, k3⟩ := reload ok (inv_state g1 g3) (st' := st) (g2.trans h2).symm
  rw [inv_strangers g1] at k3
  unfold sandboxedOverlay
  simp only
  refine ⟨file2, { st with known := st2.known.map (rollback env st.known) }, ?_, ?_⟩
  · rw [k1]
    rfl
  · rw [k3]
    exact g4

/-- One value is set in the file, unless it is refused. -/
theorem C44_set {env : Env} (ok : AtoiOk env.atoi) {custom : Custom} (hcu : CustomOk custom) {st : State} (hk : KnownOk env.lower st.known)
    {file : List Nat} (hf : Utf8 file) (hc : ColoursOk (load env custom st (some file)).known) (hr : ColoursOk (st.known.map (·.reset env custom)))
    {n v : List Nat} (ho : ChangeOk env st.known (n, some v)) :
    ∃ b file2 st2, sandboxedSet env custom st (some file) n (some v) = some (b, some file2, st2) ∧
      Changes env custom n (some v) (load env custom st (some file)) (load env custom st (some file2)) ∧
      (b = false ↔ ∃ s ∈ st.known, Names s n ∧ parse env s.ty v = none) ∧ (b = false → file2 = file) := by
  obtain ⟨h1, h2⟩ := load_inv ok hcu hk hf
  have hr' : ColoursOk ((load env custom st (some file)).known.map (·.reset env custom)) := by
    rw [reset_all h2 hk.decl]
    exact hr
  obtain ⟨g1, g2, g3, g4⟩ := overlay_one ok hcu h1 hc hr' (changeOk_decl h2 ho)
  obtain ⟨file2, st2, k1, -, k3⟩ := reload ok (inv_state g1 g3) (st' := st) (g2.trans h2).symm
  rw [inv_strangers g1] at k3
  have k1' : save (setSetting env (load env custom st (some file)) n v none).1 = some (file2, st2) := k1
  have k3' : load env custom st (some file2) = (setSetting env (load env custom st (some file)) n v none).1 := k3
  have g4' : Changes env custom n (some v) (load env custom st (some file)) (setSetting env (load env custom st (some file)) n v none).1 := g4
  have hb := setSetting_false (env := env) h1.known n v (none : Option (List Nat))
  rw [refused_decl h2] at hb
  unfold sandboxedSet
  simp only [Option.bind_some]
  cases hres : (setSetting env (load env custom st (some file)) n v none).2 with
  | true =>
    refine ⟨true, file2, { st with known := st2.known.map (rollback env st.known) }, ?_, ?_, ?_, fun h => by cases h⟩
    · rw [if_pos rfl, k1']
      rfl
    · rw [k3']
      exact g4'
    · rw [← hb, hres]
  | false =>
    obtain ⟨s, hs, hn, hp⟩ := hb.1 hres
    refine ⟨false, file, _, if_neg (by simp), ?_, ?_, fun _ => rfl⟩
    · have : ∃ s ∈ (load env custom st (some file)).known, Names s n ∧ parse env s.ty v = none := (refused_decl h2).2 ⟨s, hs, hn, hp⟩
      obtain ⟨s', hs', hn', hp'⟩ := this
      exact .refused hs' hn' hp'
    · rw [← hb, hres]

/-- Settings of the session are given back, except colours; all are marked as set. -/
theorem C44_session {env : Env} (ok : AtoiOk env.atoi) {custom : Custom} {st : State} (hk : KnownOk env.lower st.known) {file file2 : Option (List Nat)} {b : Bool}
    {n : List Nat} {v : Option (List Nat)} {st2 : State} (h : sandboxedSet env custom st file n v = some (b, file2, st2)) :
    st2.loaded = st.loaded ∧ SameDecl st2.known st.known ∧ ∀ (i : Nat) (s : Setting), st.known[i]? = some s → (∀ d, s.ty ≠ .color d) →
      ValOk env.lower s.ty s.val → st2.known[i]? = some { s with save := true } := by
  obtain ⟨new, hd, rfl⟩ := sandboxedSet_known h
  exact ⟨rfl, rollback_decl hd, fun i s hs hcol hv => rollback_known ok hk hd hs hcol hv⟩

theorem C44_session_overlay {env : Env} (ok : AtoiOk env.atoi) {custom : Custom} {st : State} (hk : KnownOk env.lower st.known) {file file2 : Option (List Nat)}
    {overlay : List (List Nat × Option (List Nat))} {st2 : State} (h : sandboxedOverlay env custom st file overlay = some (file2, st2)) :
    st2.loaded = st.loaded ∧ SameDecl st2.known st.known ∧ ∀ (i : Nat) (s : Setting), st.known[i]? = some s → (∀ d, s.ty ≠ .color d) →
      ValOk env.lower s.ty s.val → st2.known[i]? = some { s with save := true } := by
  obtain ⟨new, hd, rfl⟩ := sandboxedOverlay_known h
  exact ⟨rfl, rollback_decl hd, fun i s hs hcol hv => rollback_known ok hk hd hs hcol hv⟩

/-! ### Where it goes wrong -/

/-- A colour of the session becomes the one in the file. -/
theorem C44_colour : ∃ (st : State), KnownOk sampleEnv.lower st.known ∧
    st.known[4]? = some ⟨bs "e.color", bs "E", .color (bs "bold"), .text (bs "0;91"), true⟩ ∧
    (sandboxedSet sampleEnv (fun _ => none) st (some []) (bs "b.int") (some (bs "5"))).bind (fun r => r.2.2.known[4]?) =
      some ⟨bs "e.color", bs "E", .color (bs "bold"), .text (bs "0;1"), false⟩ := by
  refine ⟨⟨sampleKnown.take 4 ++ [⟨bs "e.color", bs "E", .color (bs "bold"), .text (bs "0;91"), true⟩], []⟩, ?_, rfl, ?_⟩
  · exact (known_set sample_known (i := 4) (s := ⟨bs "e.color", bs "E", .color (bs "bold"), .text (bs "0;1"), false⟩)
      (t := ⟨bs "e.color", bs "E", .color (bs "bold"), .text (bs "0;91"), true⟩) rfl rfl).1
  · decide +kernel

/-- A setting that is not known but is in the file cannot be changed, although the result is true. -/
theorem C44_kept : (sandboxedSet sampleEnv (fun _ => none) sampleState (some (bs "X.y = 1")) (bs "X.y") (some (bs "2"))).map
      (fun r => (r.1, r.2.1.map loadInternal)) = some (true, some [⟨bs "X.y", bs "1", []⟩]) := by
  decide +kernel

/-- `settings.clear` of an integer reads at a null pointer. -/
theorem C44_null : luaClear sampleEnv (fun _ => none) sampleState (some []) (bs "b.int") = none := by
  have : (luaClear sampleEnv (fun _ => none) sampleState (some []) (bs "b.int")).isNone = true := by decide +kernel
  exact Option.isNone_iff_eq_none.1 this

/-- `settings.clear` of a boolean does not change the file. -/
theorem C44_clear_bool : (luaClear sampleEnv (fun _ => none) sampleState (some (bs "a.bool = off")) (bs "a.bool")).map (fun r => (r.1, r.2.1)) =
      some (false, some (bs "a.bool = off")) := by
  decide +kernel

/-- `settings.clear` of a text makes it empty instead of its default. -/
theorem C44_clear_text : ∃ st : State, st.known = [⟨bs "c.str", bs "C", .str (bs "dflt"), .text (bs "x"), true⟩] ∧
    (luaClear sampleEnv (fun _ => none) st (some (bs "c.str = x")) (bs "c.str")).map
      (fun r => (r.1, (load sampleEnv (fun _ => none) st r.2.1).known, r.2.2.known)) =
      some (true, [⟨bs "c.str", bs "C", .str (bs "dflt"), .text [], true⟩], [⟨bs "c.str", bs "C", .str (bs "dflt"), .text (bs "dflt"), true⟩]) :=
  ⟨⟨_, []⟩, rfl, by decide +kernel⟩

/-- Settings of the session are marked as set: saving them would write the defaults. -/
theorem C44_marked : (sandboxedSet sampleEnv (fun _ => none) sampleState (some []) (bs "b.int") (some (bs "5"))).map (fun r => r.2.2.known.map fun s => (s.val, s.save)) =
      some [(.num 1, true), (.num 7, true), (.text [], true), (.num 1, true), (.text (bs "0;1"), false)] := by
  decide +kernel

/-! ### Examples -/

theorem sample_change : ChangeOk sampleEnv sampleKnown (bs "b.int", some (bs "-6")) where
  name := ⟨⟨line_ascii (by decide) (by decide) (by decide), head_ok (by decide)⟩, head_ok (by decide), by decide, by decide⟩
  value w hw := by cases hw; exact ⟨line_ascii (by decide) (by decide) (by decide), head_ok (by decide)⟩
  auto w _ hl := absurd hl.1 (by decide)
  colour w _ s hs hn d hd := by
    exfalso
    have : s = ⟨bs "e.color", bs "E", .color (bs "bold"), .text (bs "0;1"), false⟩ := by
      simp only [sampleKnown, List.mem_cons, List.not_mem_nil, or_false] at hs
      rcases hs with rfl | rfl | rfl | rfl | rfl <;> first | cases hd; done | rfl
    subst this
    rcases hn with h | h
    · exact absurd h.1 (by decide)
    · exact absurd h.1 (by decide)

theorem sample_reset : ColoursOk (sampleState.known.map (·.reset sampleEnv fun _ => none)) := by
  intro s hs d _ h
  have : ∀ s ∈ sampleState.known.map (·.reset sampleEnv fun _ => none), s.save = false := by decide +kernel
  rw [this s hs] at h
  cases h

/-- A value is set in the sample file of C25. -/
example : ∃ b file2 st2, sandboxedSet sampleEnv (fun _ => none) sampleState (some sampleFile) (bs "b.int") (some (bs "-6")) = some (b, some file2, st2) ∧
      Changes sampleEnv (fun _ => none) (bs "b.int") (some (bs "-6")) (load sampleEnv (fun _ => none) sampleState (some sampleFile))
        (load sampleEnv (fun _ => none) sampleState (some file2)) ∧
      (b = false ↔ ∃ s ∈ sampleKnown, Names s (bs "b.int") ∧ parse sampleEnv s.ty (bs "-6") = none) ∧ (b = false → file2 = sampleFile) :=
  C44_set sampleAtoi_ok (fun n v h => by cases h) sample_known sample_utf8 sample_colours sample_reset sample_change

/-- The same and a setting that is cleared. -/
example : (sandboxedOverlay sampleEnv (fun _ => none) sampleState (some sampleFile) [(bs "b.int", some (bs "-6")), (bs "a.bool", none), (bs "X.y", none)]).map
      (fun r => ((load sampleEnv (fun _ => none) sampleState r.1).known.map (fun s => (s.val, s.save)), (load sampleEnv (fun _ => none) sampleState r.1).loaded)) =
    some ([(.num 1, false), (.num (-6), true), (.text [], false), (.num 2, true), (.text (bs "0;91"), true)], []) := by
  decide +kernel

end Clink.Settings
