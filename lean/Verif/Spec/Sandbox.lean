import Verif.Spec.Settings

/-! What one change of a setting does. -/

namespace Clink.Settings.Spec

/-- A value is given to a name, or (without a value) the name is cleared. -/
inductive Changes (env : Env) (custom : Custom) (name : List Nat) : Option (List Nat) → State → State → Prop where
  | set {pre s post loaded v x} (hn : Names s name) (hp : parse env s.ty v = some x) :
      Changes env custom name (some v) ⟨pre ++ s :: post, loaded⟩ ⟨pre ++ { s with val := x, save := true } :: post, loaded⟩
  | refused {s st v} (hs : s ∈ st.known) (hn : Names s name) (hp : parse env s.ty v = none) : Changes env custom name (some v) st st
  | clear {pre s post loaded} (hn : Names s name) : Changes env custom name none ⟨pre ++ s :: post, loaded⟩ ⟨pre ++ s.reset env custom :: post, loaded⟩
  | new {known a b v} (hu : Unknown known name) (ha : ∀ l ∈ a, Before l.name name) (hb : ∀ l ∈ b, Before name l.name) :
      Changes env custom name (some v) ⟨known, a ++ b⟩ ⟨known, a ++ ⟨name, [], v, false⟩ :: b⟩
  | kept {l st v} (hu : Unknown st.known name) (hl : l ∈ st.loaded) (hn : l.name = name) : Changes env custom name (some v) st st
  | dropped {known a l b} (hu : Unknown known name) (hn : l.name = name) : Changes env custom name none ⟨known, a ++ l :: b⟩ ⟨known, a ++ b⟩
  | absent {st} (hu : Unknown st.known name) (hn : ∀ l ∈ st.loaded, l.name ≠ name) : Changes env custom name none st st

/-- Changes one after another. -/
inductive AllChange (env : Env) (custom : Custom) : List (List Nat × Option (List Nat)) → State → State → Prop where
  | nil {st} : AllChange env custom [] st st
  | cons {n v l a b c} (h : Changes env custom n v a b) (t : AllChange env custom l b c) : AllChange env custom ((n, v) :: l) a c

/-- A change that can be written to a file. -/
structure ChangeOk (env : Env) (known : List Setting) (o : List Nat × Option (List Nat)) : Prop where
  name : NameOk o.1
  value : ∀ v, o.2 = some v → ValueOk v
  auto : ∀ v, o.2 = some v → Color.Spec.Like o.1 (Color.bs "clink.autoupdate") → ¬ OldWord v
  colour : ∀ v, o.2 = some v → ∀ s ∈ known, Names s o.1 → ∀ d, s.ty = .color d → ∀ code, Color.parse v = some code → ColourOk code

end Clink.Settings.Spec
