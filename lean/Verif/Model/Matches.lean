import Verif.Model.Path
import Verif.Model.MatchWild

/-!
Model of the list of matches.
Sources: clink/lib/src/matches_impl.h, matches_impl.cpp, match_pipeline.cpp, slash_translation.cpp,
clink/lib/include/lib/matches.h.

Texts are byte lists without NUL; a null pointer is `none`.  Memory for texts is always found.  `unordered_set` finds an
element if it holds one that the comparator calls equal to it (the hash only depends on the text, which must be equal).
A read outside of the vector is undefined behaviour and gives `none`.  `alpha` stands for `isalpha`.
-/

namespace Clink.Matches

open StrCompare (isSep)

/-- `match_type`, lib/include/lib/matches.h:16-37: the bits of the mask, three of the flags, and the others. -/
structure MType where
  base : Nat
  hidden : Bool := false
  system : Bool := false
  other : Nat := 0
  hist : Bool := false
  deriving DecidableEq, Repr

/-- `is_pathish`, lib/include/lib/matches.h:44-48. -/
def MType.pathish (t : MType) : Bool := t.base == 6 || t.base == 7

/-- `match_desc`, lib/include/lib/matches.h:234-246. -/
structure Desc where
  text : Option (List Nat)
  display : Option (List Nat) := none
  description : Option (List Nat) := none
  type : MType
  appendChar : Nat := 0
  suppress : Int := -1
  appendDisplay : Bool := false
  missing : Bool := false
  deriving DecidableEq, Repr

/-- `match_info`, lib/src/matches_impl.h:14-26. -/
structure Info where
  text : List Nat
  display : Option (List Nat)
  description : Option (List Nat)
  ordinal : Nat
  type : MType
  appendChar : Nat
  suppress : Int
  appendDisplay : Bool
  customDisplay : Int
  select : Bool
  deriving DecidableEq, Repr

/-- `shadow_bool`, lib/include/lib/matches.h:109-134. -/
structure Shadow where
  explicit : Option Bool := none
  implicit : Bool := false
  deriving DecidableEq, Repr

def Shadow.get (s : Shadow) : Bool := s.explicit.getD s.implicit

/-- `match_lookup`, lib/src/matches_impl.h:29-33. -/
abbrev Lookup := List Nat × MType

/-- `match_lookup_comparator`, lib/src/matches_impl.cpp:69-79. -/
def equalLookup (a b : Lookup) : Bool := (decide (a.2 = b.2) || (a.2.hist || b.2.hist)) && decide (a.1 = b.1)

/-- The members of `matches_impl` that matter here, lib/src/matches_impl.h:139-167.  `count` has 16 bits. -/
structure State where
  infos : List Info := []
  count : Nat := 0
  anyNone : Bool := false
  deprecated : Bool := false
  coalesced : Bool := false
  hasDescriptions : Bool := false
  nosort : Bool := false
  sep : Nat := 0
  completion : Shadow := {}
  showNames : Shadow := {}
  dedup : List Lookup := []
  deriving DecidableEq, Repr

/-- `do_slash_translation`, lib/src/slash_translation.cpp:26-56: the separator that is used.  Modes are 0 off, 1 system,
2 slash, 3 backslash, 4 automatic (lib/src/matches_impl.cpp:42).  `normalise_separators` (core/src/path.cpp:243-251) takes 0
for a backslash. -/
def translationSep (mode sep : Nat) : Nat :=
  let c := if mode = 2 then 47 else if mode = 3 then 92 else if mode = 4 then sep else 0
  if c = 0 then 92 else c

def endsWithSep (text : List Nat) : Bool := isSep (text.getLast?.getD 0)

/-- `add_match`, lib/src/matches_impl.cpp:1153-1162: the type of a match. -/
def matchType (text : List Nat) (type : MType) : MType :=
  if endsWithSep text && type.base == 1 && !type.hist then { type with base := 7 } else type

/-- `add_match`, lib/src/matches_impl.cpp:1168-1175. -/
def mustTranslate (mode : Nat) (files already : Bool) (type : MType) : Bool :=
  decide (0 < mode) && (decide (1 < mode) || !already) && (type.base == 7 || type.base == 6 || (type.base == 1 && files && type.hist))

/-- `add_match`, lib/src/matches_impl.cpp:1177-1197: the text of a match. -/
def matchText (alpha : Nat → Bool) (mode sep : Nat) (files already : Bool) (text : List Nat) (type : MType) : Option (List Nat) :=
  (if type.base == 7 && !endsWithSep text then Path.append alpha text [] else some text).map fun text =>
    if mustTranslate mode files already type then Path.normaliseSeparators (translationSep mode sep) text else text

/-- `desc.display && *desc.display`, lib/src/matches_impl.cpp:1228-1229. -/
def stored : Option (List Nat) → Option (List Nat)
  | some (c :: l) => some (c :: l)
  | _ => none

/-- `add_match`, lib/src/matches_impl.cpp:1145-1253. -/
def State.add (alpha : Nat → Bool) (mode : Nat) (s : State) (d : Desc) (already : Bool) : Option (State × Bool) :=
  match s.coalesced, d.text with
  | true, _ | _, none | _, some [] => some (s, false)
  | false, some text =>
    let type := matchType text d.type
    (matchText alpha mode s.sep s.completion.get already text type).map fun text =>
      if s.dedup.any (equalLookup (text, type)) then (s, false)
      else
        let display := stored d.display
        let description := stored d.description
        let info : Info :=
          { text := text, display := display, description := description, ordinal := s.infos.length, type := type
            appendChar := d.appendChar, suppress := d.suppress, appendDisplay := d.appendDisplay && display.isSome
            customDisplay := if d.missing then 1 else if display.isSome then -1 else 0, select := false }
        ({ s with
            infos := s.infos ++ [info], count := (s.count + 1) % 65536, anyNone := s.anyNone || type.base == 1
            dedup := (text, type) :: s.dedup, hasDescriptions := s.hasDescriptions || description.isSome }, true)

/-- `set_matches_are_files`, lib/src/matches_impl.cpp:1104-1108. -/
def State.setFiles (s : State) (files : Bool) : State :=
  { s with completion := { s.completion with explicit := some files }, showNames := { s.showNames with explicit := some files } }

/-- `done_building`, lib/src/matches_impl.cpp:1279-1312: the loop, with `i` elements left.  `probe` is `backcompat_match_type`. -/
def State.fixLoop (probe : List Nat → MType) (sep : Nat) (s : State) : Nat → Option State
  | 0 => some s
  | i + 1 =>
    match s.infos[i]? with
    | none => none
    | some info =>
      if info.type.base == 1 && !info.type.hist then
        let dedup := s.dedup.eraseP (equalLookup (info.text, info.type))
        let type := probe info.text
        let text := if type.base == 7 && sep ≠ 0 then info.text ++ [sep] else info.text
        if dedup.any (equalLookup (text, type)) then
          State.fixLoop probe sep { s with infos := s.infos.eraseIdx i, dedup := dedup } i
        else
          State.fixLoop probe sep { s with infos := s.infos.set i { info with text := text, type := type }, dedup := (text, type) :: dedup } i
      else State.fixLoop probe sep s i

/-- `done_building`, lib/src/matches_impl.cpp:1262-1317.  In automatic mode `sep` is `m_sep`, which can be NUL: then storing it
at the end of the text changes nothing. -/
def State.doneBuilding (probe : List Nat → MType) (mode : Nat) (s : State) : Option State :=
  let go := s.anyNone && (if s.deprecated then s.completion.explicit == some true else s.completion.get || s.completion.explicit.isNone)
  let sep := if mode = 2 then 47 else if mode = 3 then 92 else if mode = 4 then s.sep else 92
  (if go then s.fixLoop probe sep s.count else some s).map fun s => { s with dedup := [] }

/-- Exchange of two elements, lib/src/matches_impl.cpp:1338-1343. -/
def swap (infos : List Info) (i j : Nat) : List Info :=
  if i = j then infos
  else
    match infos[i]?, infos[j]? with
    | some a, some b => (infos.set j a).set i b
    | _, _ => infos

theorem swap_length (infos : List Info) (i j : Nat) : (swap infos i j).length = infos.length := by
  unfold swap
  split
  · rfl
  · split <;> simp

/-- `coalesce`, lib/src/matches_impl.cpp:1324-1345: the loop; the result holds the elements, `j`, `any_pathish` and
`all_pathish`. -/
def coalesceLoop (hint : Nat) (infos : List Info) (i j : Nat) (any all : Bool) : List Info × Nat × Bool × Bool :=
  if h : i < infos.length ∧ j < hint then
    let info := infos[i]
    if info.select then
      coalesceLoop hint (swap infos i j) (i + 1) (j + 1) (any || info.type.pathish) (all && info.type.pathish)
    else coalesceLoop hint infos (i + 1) j any all
  else (infos, j, any, all)
termination_by infos.length - i
decreasing_by
  · rw [swap_length]; omega
  · omega

/-- `coalesce`, lib/src/matches_impl.cpp:1320-1355. -/
def State.coalesce (s : State) (hint : Nat) (restrict : Bool) : State :=
  let r := coalesceLoop hint s.infos 0 0 false true
  { s with
    infos := if restrict then r.1.take r.2.1 else r.1, count := r.2.1 % 65536, coalesced := true
    completion := { s.completion with implicit := r.2.2.1 }, showNames := { s.showNames with implicit := r.2.2.1 && r.2.2.2 } }

/-- `get_match` and the like, lib/src/matches_impl.cpp:664-737: the element with this index, if the index is less than the
count. -/
def State.get (s : State) (index : Nat) : Option (Option Info) :=
  if s.count ≤ index then some none else s.infos[index]?.map some

/-- Settings and functions that selection depends on. -/
structure Env where
  alpha : Nat → Bool
  lower : Nat → Nat
  /-- comparison mode, `str_compare_scope` -/
  mode : Nat
  fuzzy : Bool
  /-- `_rl_match_hidden_files` -/
  matchHidden : Bool
  /-- `files.hidden`, `files.system` -/
  filesHidden : Bool
  filesSystem : Bool
  /-- `rl_completion_type == '%' && g_default_bindings.get() == 1` -/
  dotPrefix : Bool
  /-- `match.wild`, `match.substring` -/
  wild : Bool
  substring : Bool
  /-- `path::tilde_expand`, if it is used (`rl_complete_with_tilde_expansion`) -/
  tilde : List Nat → Option (List Nat)

/-- `include_match_type`, lib/src/match_pipeline.cpp:67-74. -/
def Env.includes (e : Env) (t : MType) : Bool :=
  if t.system then e.filesSystem else if t.hidden then e.matchHidden && e.filesHidden else true

/-- `path::is_unix_hidden(name, true)`, core/src/path.cpp:539-559. -/
def isUnixHidden (alpha : Nat → Bool) (s : List Nat) : Option Bool := do
  let start ← Path.pastDrive alpha (Path.cstr s) 0
  let fname := Path.trimEnd isSep s start s.length
  let fname := Path.trimEnd (fun c => !isSep c) s start fname
  return decide ((← Path.rd (Path.cstr s) fname) = 46)

/-- The code points that an iterator gives. -/
def codes (it : Iter) (l : List Nat) : List Nat :=
  if h : it.peek l = 0 then [] else
    have := it.adv_lt h
    it.peek l :: codes it (it.adv l)
termination_by l.length

/-- `include_hidden`, lib/src/match_pipeline.cpp:93 and 119. -/
def Env.includeHidden (e : Env) (needle : List Nat) : Option Bool :=
  (Path.getName e.alpha needle).map fun name => e.matchHidden || decide (name.head? = some 46)

/-- `prefix_selector`, lib/src/match_pipeline.cpp:93-102: whether an element is selected. -/
def Env.prefixSelect (e : Env) (needle : List Nat) (info : Info) : Option Bool := do
  let includeHidden ← e.includeHidden needle
  let hidden ← isUnixHidden e.alpha info.text
  let j := (StrCompare.strCompare e.lower Utf.iter8 ⟨e.mode, e.fuzzy, false⟩ false needle info.text).1
  return (decide (j < 0) || decide (needle.getD j.toNat 0 = 0)) && (includeHidden || !hidden) && e.includes info.type

/-- `pattern_selector`, lib/src/match_pipeline.cpp:118-132: whether an element is selected. -/
def Env.patternSelect (e : Env) (pattern : List Nat) (info : Info) : Option Bool := do
  let includeHidden ← e.includeHidden pattern
  let hidden ← isUnixHidden e.alpha info.text
  let text := info.text.take (Path.trimEnd isSep info.text 0 info.text.length)
  let ok := MatchWild.matchWild
    { lower := e.lower, mode := e.mode, fuzzy := e.fuzzy, dot := e.dotPrefix
      me := if info.type.pathish then .atEnd else .yes, pattern := codes Utf.iter8 pattern, file := codes Utf.iter8 text }
  return (includeHidden || !hidden) && e.includes info.type && ok

/-- The loops of the two selectors, lib/src/match_pipeline.cpp:94-107 and 120-137. -/
def runSelector (f : Info → Option Bool) : List Info → Option (List Info × Nat)
  | [] => some ([], 0)
  | info :: infos => do
    let sel ← f info
    let r ← runSelector f infos
    return ({ info with select := sel } :: r.1, (if sel then 1 else 0) + r.2)

/-- The loop in `can_try_substring_pattern`, lib/src/matches_impl.cpp:1372-1374. -/
def plainPattern : List Nat → Bool
  | [] => true
  | c :: l => if c = 63 ∨ (c = 42 ∧ l ≠ [] ∧ l.headD 0 ≠ 42) then false else plainPattern l

/-- `can_try_substring_pattern`, lib/src/matches_impl.cpp:1358-1379. -/
def Env.canTrySubstring (e : Env) (pattern : List Nat) : Bool :=
  match pattern with
  | [] => false
  | c :: _ => c != 126 && c != 42 && e.substring && (e.wild || plainPattern pattern)

/-- `make_substring_pattern`, lib/src/matches_impl.cpp:1382-1405. -/
def substringPattern (pattern append : List Nat) : List Nat :=
  let last := Path.trimEnd (fun c => !isSep c) pattern 0 pattern.length
  pattern.take last ++ 42 :: pattern.drop last ++ append

/-- `select_matches`, lib/src/match_pipeline.cpp:141-167. -/
def Env.selectMatches (e : Env) (needle : List Nat) (infos : List Info) : Option (List Info) := do
  let r ← runSelector (if e.dotPrefix || e.wild then e.patternSelect (needle ++ [42]) else e.prefixSelect needle) infos
  if r.2 = 0 ∧ e.canTrySubstring needle = true then
    return (← runSelector (e.patternSelect (substringPattern needle [42])) r.1).1
  return r.1

/-- `select`, lib/src/match_pipeline.cpp:482-491 and `restrict`, lib/src/match_pipeline.cpp:404-413: the needle that is used. -/
def Env.expand (e : Env) (needle : List Nat) : Option (List Nat) :=
  match needle with
  | 126 :: more =>
    match e.tilde needle with
    | some expanded => if more = [] then Path.maybeStripLastSeparator e.alpha expanded else some expanded
    | none => some needle
  | _ => some needle

/-- `match_pipeline::select`, lib/src/match_pipeline.cpp:478-512. -/
def State.select (e : Env) (s : State) (needle : List Nat) : Option State := do
  let needle ← e.expand needle
  let infos ← e.selectMatches needle s.infos
  return State.coalesce { s with infos := infos } s.infos.length false

/-- `restrict`, lib/src/match_pipeline.cpp:435-446: what is left of the needle. -/
def trimWild : List Nat → List Nat
  | [] => []
  | c :: l => if c = 42 ∨ c = 63 then [] else c :: trimWild l

/-- `match_pipeline::restrict`, lib/src/match_pipeline.cpp:400-447. -/
def State.restrict (e : Env) (s : State) (needle : List Nat) : Option (State × List Nat) := do
  let needle ← e.expand needle
  let r ← runSelector (e.patternSelect needle) s.infos
  let infos ←
    if r.2 = 0 ∧ e.canTrySubstring needle = true then
      (runSelector (e.patternSelect (substringPattern needle [])) r.1).map (·.1)
    else some r.1
  return (State.coalesce { s with infos := infos } s.infos.length true, trimWild needle)

/-- `match_pipeline::restrict` to the given matches, lib/src/match_pipeline.cpp:450-475.  The first one is skipped. -/
def State.restrictTo (s : State) (keep : List (List Nat)) : State :=
  let infos := s.infos.map fun info => { info with select := decide (info.text ∈ keep.tail) }
  State.coalesce { s with infos := infos } (infos.countP (·.select)) true

/-- `is_dir_match`, lib/src/match_pipeline.cpp:170-179. -/
def isDirMatch (text : List Nat) (type : MType) : Bool :=
  if type.base == 7 then true
  else if type.base != 1 || type.hist then false
  else endsWithSep text

/-- Leading minus signs, lib/src/match_pipeline.cpp:209-212. -/
def minuses : List Nat → Nat
  | 45 :: l => minuses l + 1
  | _ => 0

/-- The end of `sort_worker`, lib/src/match_pipeline.cpp:233-254. -/
def sortTypes (a b : Nat) : List Nat → Bool
  | [] => false
  | t :: ts =>
    let cmp : Int := (if a = t then 1 else 0) - (if b = t then 1 else 0)
    if cmp ≠ 0 then decide (cmp < 0) else sortTypes a b ts

/-- `CompareStringW`, less `CSTR_EQUAL`: with and without `LINGUISTIC_IGNORECASE`; and `to_utf16`. -/
structure Collate where
  noCase : List Nat → List Nat → Int
  exact : List Nat → List Nat → Int
  wide : List Nat → List Nat

/-- Directories are compared without the separator at the end, lib/src/match_pipeline.cpp:196-205. -/
def sortStrip (alpha : Nat → Bool) (isDir : Bool) (text : List Nat) : Option (List Nat) :=
  if isDir then Path.maybeStripLastSeparator alpha text else some text

/-- `sort_worker`, lib/src/match_pipeline.cpp:182-256.  `order` is `match.sort_dirs`: 0 before, 1 with, 2 after. -/
def sortWorker (alpha : Nat → Bool) (c : Collate) (order : Nat) (l : List Nat) (lt : MType) (r : List Nat) (rt : MType) : Option Bool := do
  let ld := isDirMatch l lt
  let rd := isDirMatch r rt
  if order ≠ 1 ∧ ld ≠ rd then return if order = 0 then ld else rd
  let l ← sortStrip alpha ld l
  let r ← sortStrip alpha rd r
  let cmp : Int := if l.head? = some 45 ∨ r.head? = some 45 then (minuses l : Int) - minuses r else 0
  if cmp ≠ 0 then return decide (cmp < 0)
  if c.noCase l r ≠ 0 then return decide (c.noCase l r < 0)
  if c.exact l r ≠ 0 then return decide (c.exact l r < 0)
  return sortTypes lt.base rt.base [7, 5, 4, 2, 3, 6]

/-- The predicate of `alpha_sorter`, lib/src/match_pipeline.cpp:274-280. -/
def alphaLess (alpha : Nat → Bool) (c : Collate) (order : Nat) (a b : Info) : Option Bool :=
  sortWorker alpha c order (c.wide a.text) a.type (c.wide b.text) b.type

/-- `match_pipeline::sort`, lib/src/match_pipeline.cpp:515-529.  `sorter` is `std::sort`, and `less` the order for the alphabet. -/
def State.sort (sorter : (Info → Info → Bool) → List Info → List Info) (less : Info → Info → Bool) (s : State) : State :=
  if s.count = 0 then s
  else
    { s with infos := sorter (if s.nosort then fun a b => decide (a.ordinal < b.ordinal) else less) (s.infos.take s.count) ++ s.infos.drop s.count }

/-- `copy`, lib/src/matches_impl.cpp:996-1010. -/
def copyInfos (n : Nat) : List Info → List Info
  | [] => []
  | info :: infos => { info with ordinal := n, select := false } :: copyInfos (n + 1) infos

/-- `copy`, lib/src/matches_impl.cpp:992-1032. -/
def State.copy (s : State) : State := { s with infos := copyInfos 0 s.infos, dedup := [] }

end Clink.Matches
