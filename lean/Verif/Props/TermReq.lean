import Verif.Proof.TermReqAnswer
/-
C58: requests to the terminal, whose answers come among the keys.
-/
namespace Clink.TermReq
open Spec Clink.TermIn Clink.TermIn.Spec
open Clink.Doskey.Spec (flat)

variable {g : Cfg}

/-- The records `K` have come and the calls `ops` were made; then `X` comes. -/
def after (g : Cfg) (K : List Record) (ops : List Op) (X : List Record) : St := { (run g { queue := K } ops).1 with queue := X }

theorem after_ring (hp : Plain g.keys) {K X : List Record} {bK : List Nat} (hK : Gives g 0 K bK) {ops : List Op} (hc : ∀ o ∈ ops, Calm o) :
    (after g K ops X).Ring := by
  obtain ⟨b1, i1, _, _⟩ := run_inv hp ops _ bK (start_inv hK) (gives_bytes hp hK) hc
  exact ⟨i1.ok.len, i1.ok.head, i1.ok.1.count⟩

/-- What is read after a request that leaves the right records. -/
theorem after_read (hp : Plain g.keys) {K : List Record} {bK : List Nat} (hK : Gives g 0 K bK) {ops : List Op} (hc : ∀ o ∈ ops, Calm o)
    (hq : (run g { queue := K } ops).1.queue = []) {X : List Record} {pre : List Nat} {fin : Option Nat} {first : Nat} {time : Nat → Nat}
    {Y Z : List Record} {b : List Nat} (h1 : (request g pre fin first time (after g K ops X)).1.pending = (after g K ops X).pending ++ Y)
    (h2 : (request g pre fin first time (after g K ops X)).1.queue = Z) (hY : ∀ r ∈ Y, Alone g r) (hb : Gives g 0 (Y ++ Z) b) {ops2 : List Op}
    (hc2 : ∀ o ∈ ops2, Calm o) :
    inputs (run g { queue := K } ops).2 ++ inputs (run g (request g pre fin first time (after g K ops X)).1 ops2).2 <+: (bK ++ b).map special ∧
      ∃ n m, inputs (run g { queue := K } ops).2 ++ inputs (run g (request g pre fin first time (after g K ops X)).1 (ops2 ++ rounds n m)).2 =
        (bK ++ b).map special := by
  obtain ⟨b1, i1, e1, hb1⟩ := run_inv hp ops _ bK (start_inv hK) (gives_bytes hp hK) hc
  have hfl := request_fields g pre fin first time (after g K ops X) ⟨i1.ok.sending, i1.ok.force⟩
  have i2 : Inv g (request g pre fin first time (after g K ops X)).1 (b1 ++ b) := request_inv i1 hq hY hfl h1 h2 (fun r hr => hr) hb
  have hbb : ∀ x ∈ b1 ++ b, x ≤ 0xFD := by
    intro x hx
    rcases List.mem_append.1 hx with hx | hx
    · exact hb1 x hx
    · exact gives_bytes hp hb x hx
  generalize (request g pre fin first time (after g K ops X)).1 = u at *
  obtain ⟨b3, i3, e3, hb3⟩ := run_inv hp ops2 u _ i2 hbb hc2
  have hkey : ∀ c : List Out, c ++ b3.map special = (b1 ++ b).map special →
      inputs (run g { queue := K } ops).2 ++ c ++ b3.map special = (bK ++ b).map special := by
    intro c hcc
    rw [List.append_assoc, hcc, List.map_append, ← List.append_assoc, e1, ← List.map_append]
  refine ⟨⟨_, hkey _ e3⟩, (run g u ops2).1.queue.length, (run g u ops2).1.left, ?_⟩
  have hl := rounds_left hp (run g u ops2).1.queue.length (run g u ops2).1.left _ b3 i3 hb3 (Nat.le_refl _) (Nat.le_refl _)
  obtain ⟨b4, i4, e4, _⟩ := run_inv hp (rounds (run g u ops2).1.queue.length (run g u ops2).1.left) _ b3 i3 hb3 (rounds_calm _ _)
  have h0 := left_zero i4 hl
  subst h0
  have := hkey _ e3
  rw [← e4] at this
  rw [(run_append g ops2 _ _).2, inputs_append, ← List.append_assoc]
  simpa using this

/-- Records are never changed, repeated or brought in another order by a request, whatever comes and whenever it comes. -/
theorem C58_order (g : Cfg) (pre : List Nat) (fin : Option Nat) (first : Nat) (time : Nat → Nat) (s : St) :
    ((request g pre fin first time s).1.pending ++ (request g pre fin first time s).1.queue).Sublist (s.pending ++ s.queue) :=
  request_sub g pre fin first time s

/-- An answer ends with the character that was asked for, and begins with the prefix (or is itself the beginning of it). -/
theorem C58_honest (g : Cfg) (pre : List Nat) (f : Nat) (first : Nat) (time : Nat → Nat) (s : St)
    (h : (request g pre (some f) first time s).2 ≠ []) : (request g pre (some f) first time s).2.getLast? = some f ∧
      (pre <+: (request g pre (some f) first time s).2 ∨ (request g pre (some f) first time s).2 <+: pre) := by
  rcases request_honest g pre (some f) first time s with h0 | ⟨h1, h2⟩
  · exact absurd h0 h
  · exact ⟨isFinal_iff.1 h2, (starts_iff _ _).1 h1⟩

/-- A request that gets no answer loses nothing: what was typed before and during it (characters of the BMP and other keys)
is read afterwards, in order, however long the request waits. -/
theorem C58_kept (hp : Plain g.keys) {K X : List Record} {bK bX : List Nat} (hK : Gives g 0 K bK) {ops : List Op} (hc : ∀ o ∈ ops, Calm o)
    (hq : (run g { queue := K } ops).1.queue = []) (hX : Gives g 0 X bX) (ha : ∀ r ∈ X, Alone g r ∧ PlainEsc r) {pre : List Nat} {fin : Option Nat}
    {first : Nat} {time : Nat → Nat} (hn : (request g pre fin first time (after g K ops X)).2 = []) {ops2 : List Op} (hc2 : ∀ o ∈ ops2, Calm o) :
    inputs (run g { queue := K } ops).2 ++ inputs (run g (request g pre fin first time (after g K ops X)).1 ops2).2 <+: (bK ++ bX).map special ∧
      ∃ n m, inputs (run g { queue := K } ops).2 ++ inputs (run g (request g pre fin first time (after g K ops X)).1 (ops2 ++ rounds n m)).2 =
        (bK ++ bX).map special := by
  obtain ⟨Y, h1, h2⟩ := request_kept hp (after_ring hp hK hc) ha hn (gives_each hX fun r hr => (ha r hr).1)
  refine after_read hp hK hc hq h1 rfl ?_ (each_gives h2) hc2
  -- what is left was there before
  have hs := request_sub g pre fin first time (after g K ops X)
  intro r hr
  have hsub : (Y ++ (request g pre fin first time (after g K ops X)).1.queue).Sublist X := by
    rw [h1, List.append_assoc] at hs
    exact (List.append_sublist_append_left _).1 hs
  exact (ha r (hsub.subset (List.mem_append_left _ hr))).1

/-- The answer to a request is found among what is typed, if it comes before the time is up; everything that was typed
before the request, before the answer and after it is read afterwards, in order, and nothing of the answer is. -/
theorem C58_answer (hp : Plain g.keys) {K : List Record} {bK : List Nat} (hK : Gives g 0 K bK) {ops : List Op} (hc : ∀ o ∈ ops, Calm o)
    (hq : (run g { queue := K } ops).1.queue = []) {pre : List Nat} {f : Nat} (hpre : [27, 91] <+: pre)
    {A R B : List Record} {ws : List (List Nat)} {w bB : List Nat} (hA : Typed g pre f A ws) (hR : Sent g R w) (hw : Csi w) (hf : Answers pre f w)
    (hB : Gives g 0 B bB) {first : Nat} {time : Nat → Nat} (ht : (A ++ R).length ≤ first ∧ ∀ i, (A ++ R).length ≤ time i)
    (hl : (run g { queue := K } ops).1.pending.length < 15360 ∧ (run g { queue := K } ops).1.pending.length + (A ++ R).length ≤ 16384)
    (hsz : (flat ws.flatten ++ w).length ≤ 65471) {ops2 : List Op} (hc2 : ∀ o ∈ ops2, Calm o) :
    (request g pre (some f) first time (after g K ops (A ++ R ++ B))).2 = w ∧
    inputs (run g { queue := K } ops).2 ++ inputs (run g (request g pre (some f) first time (after g K ops (A ++ R ++ B))).1 ops2).2 <+:
        (bK ++ (flat ws.flatten ++ bB)).map special ∧
      ∃ n m, inputs (run g { queue := K } ops).2 ++ inputs (run g (request g pre (some f) first time (after g K ops (A ++ R ++ B))).1 (ops2 ++ rounds n m)).2 =
        (bK ++ (flat ws.flatten ++ bB)).map special := by
  obtain ⟨h0, Y, Q, h1, h2, h3, h4, h5⟩ := request_answer hp hpre (after_ring hp hK hc (X := A ++ R ++ B)) rfl hA hR hw hf hl hsz ht
  refine ⟨h0, after_read hp hK hc hq h1 h2 h4 (gives_append (each_gives h5) ?_) hc2⟩
  clear h2
  induction Q with
  | nil => exact hB
  | cons r Q ih => exact .quiet (h3 r (by simp)) (ih fun x hx => h3 x (by simp [hx]))

/-! ## What goes wrong -/

/-- How a terminal sends bytes. -/
def sent (l : List Nat) : List Record := l.map fun b => .key { vk := 0, ch := b }

/-- `ESC [ ? 2 ; 1 $ y` -/
def reply : List Nat := [27, 91, 63, 50, 59, 49, 36, 121]

def asked (g : Cfg) (pre : List Nat) (fin : Option Nat) (X : List Record) : St × List Nat :=
  request g pre fin X.length (fun _ => X.length) { queue := X }

def readAll (g : Cfg) (s : St) : List Out := inputs (run g s (rounds 20 400)).2

/-- A character outside of the BMP that is typed during a request becomes U+FFFD. -/
theorem C58_pair_violated : ∃ X, Text [0xD83D, 0xDE00] X ∧ (asked {} [27, 91, 63] (some 121) X).2 = [] ∧
    readAll {} (asked {} [27, 91, 63] (some 121) X).1 = [.byte 239, .byte 191, .byte 189] ∧
    readAll {} { queue := X } = [.byte 240, .byte 159, .byte 152, .byte 128] :=
  ⟨[.key { vk := 0xE7, ch := 0xD83D }, .key { vk := 0xE7, ch := 0xDE00 }],
    .key ⟨rfl, rfl, by decide, by decide, by decide, by decide⟩ (.key ⟨rfl, rfl, by decide, by decide, by decide, by decide⟩ .nil),
    by decide +kernel⟩

/-- After the Esc key the answer is not recognised; it is read as if it had been typed. -/
theorem C58_esc_violated : ∃ r : Record, Alone {} r ∧ PlainEsc r ∧ (asked {} [27, 91, 63] (some 121) (r :: sent reply)).2 = [] ∧
    [.byte 91, .byte 63, .byte 50, .byte 59, .byte 49, .byte 36, .byte 121] <:+ readAll {} (asked {} [27, 91, 63] (some 121) (r :: sent reply)).1 :=
  ⟨.key { vk := 27, ch := 27 }, ⟨_, .seq (s := csi [50, 55, 59, 50, 55, 126]) (by decide +kernel) .nil⟩, (by simp [PlainEsc, Flags.ctrl, Flags.alt]),
    by decide +kernel, by decide +kernel⟩

/-- Nor is it after ctrl-2, which gives NUL. -/
theorem C58_nul_violated : ∃ r : Record, Gives {} 0 [r] [0] ∧ PlainEsc r ∧ (asked {} [27, 91, 63] (some 121) (r :: sent reply)).2 = [] ∧
    [.byte 91, .byte 63, .byte 50, .byte 59, .byte 49, .byte 36, .byte 121] <:+ readAll {} (asked {} [27, 91, 63] (some 121) (r :: sent reply)).1 :=
  ⟨.key { vk := 50, ch := 0, flags := { lctrl := true } },
    (by
      have h : Gives {} 0 [.key { vk := 50, ch := 0, flags := { lctrl := true } }] _ := .chars (cs := [0]) (by decide +kernel) (by simp [Spec.Unit]) .nil
      rwa [show heard ({} : Cfg).keys ([0].flatMap Clink.Utf.specUtf8) ++ [] = [0] by decide +kernel] at h),
    (by simp [PlainEsc]), by decide +kernel, by decide +kernel⟩

/-- Answers other than control sequences are never recognised: `ESC ] 1 1 ; a` with each of its two endings. -/
theorem C58_osc_violated : (asked {} [27, 93] none (sent [27, 93, 49, 49, 59, 97, 7])).2 = [] ∧
    (asked {} [27, 93] none (sent [27, 93, 49, 49, 59, 97, 27, 92])).2 = [] ∧
    [.byte 93, .byte 49, .byte 49, .byte 59, .byte 97, .byte 7] <:+ readAll {} (asked {} [27, 93] none (sent [27, 93, 49, 49, 59, 97, 7])).1 :=
  ⟨by decide +kernel, by decide +kernel, by decide +kernel⟩

/-- With raw Esc, alt-[ before the answer is lost, and the end of the answer is read instead. -/
theorem C58_alt_violated : ∃ r : Record, Gives { rawEsc := true } 0 [r] [27, 91] ∧ (asked { rawEsc := true } [27, 91, 63] (some 121) (r :: sent reply)).2 = reply ∧
    readAll { rawEsc := true } (asked { rawEsc := true } [27, 91, 63] (some 121) (r :: sent reply)).1 = [.byte 36, .byte 121] :=
  ⟨.key { vk := 65, ch := 91, flags := { lalt := true } },
    (by
      have h : Gives { rawEsc := true } 0 [.key { vk := 65, ch := 91, flags := { lalt := true } }] _ :=
        .chars (cs := [27, 91]) (by decide +kernel) (by simp [Spec.Unit]) .nil
      rwa [show heard ({ rawEsc := true } : Cfg).keys ([27, 91].flatMap Clink.Utf.specUtf8) ++ [] = [27, 91] by decide +kernel] at h),
    by decide +kernel⟩

/-! ## Examples -/

theorem reply_csi : Csi reply ∧ Answers [27, 91, 63] 121 reply :=
  ⟨⟨[63, 50, 59, 49], [36], 121, rfl, by simp [Ecma48.Spec.Param], by simp [Ecma48.Spec.Middle], by simp [Ecma48.Spec.Final]⟩,
    ⟨[50, 59, 49, 36, 121], rfl⟩, rfl⟩

/-- What a terminal sends is sent, whatever the settings. -/
theorem sent_sent (g : Cfg) (hk : g.keys = none) : Sent g (sent reply) reply := by
  have h : ∀ b ∈ reply, act g true true { vk := 0, ch := b } = .chars [b] := by
    intro b hb
    obtain ⟨wd, raw, al, di, wi, nm, ks⟩ := g
    simp only [reply, List.mem_cons, List.not_mem_nil, or_false] at hb
    rcases hb with rfl | rfl | rfl | rfl | rfl | rfl | rfl | rfl <;> simp [act, actKey, simpleChar, Flags.alt, Flags.ctrl, keymodIndex]
  have key : ∀ l : List Nat, (∀ b ∈ l, b ∈ reply) → Sent g (sent l) l := by
    intro l
    induction l with
    | nil => intro _; exact .nil
    | cons b l ih =>
      intro hl
      have hb := hl b (by simp)
      refine .key (h b hb) ?_ (by simp [heard, hk]) (ih fun x hx => hl x (by simp [hx]))
      have : ∀ x ∈ reply, x < 128 := by decide
      exact this b hb
  exact key reply fun b hb => hb

/-- `é`, the key up, a key released, and alt-x, while the request waits. -/
def exTyped : List Record :=
  [.key { vk := 0xE7, ch := 0xE9 }, .key { vk := 38, ch := 0 }, .key { down := false, vk := 38, ch := 0 }, .key { vk := 88, ch := 120, flags := { lalt := true } }]

theorem exTyped_typed : Typed {} [27, 91, 63] 121 exTyped [[0xE9], [27, 91, 65], [27, 120]] := by
  have g1 : Gives {} 0 [.key { vk := 0xE7, ch := 0xE9 }] (flat [0xE9]) := by
    have h : Gives {} 0 [.key { vk := 0xE7, ch := 0xE9 }] _ := .chars (cs := [0xE9]) (by decide +kernel) (by simp [Spec.Unit]) .nil
    rwa [show heard ({} : Cfg).keys ([0xE9].flatMap Clink.Utf.specUtf8) ++ [] = flat [0xE9] by decide +kernel] at h
  have g2 : Gives {} 0 [.key { vk := 38, ch := 0 }] (flat [27, 91, 65]) := by
    have h : Gives {} 0 [.key { vk := 38, ch := 0 }] _ := .seq (s := [27, 91, 65]) (by decide +kernel) .nil
    rwa [show heard ({} : Cfg).keys [27, 91, 65] ++ [] = flat [27, 91, 65] by decide +kernel] at h
  have g3 : Gives {} 0 [.key { vk := 88, ch := 120, flags := { lalt := true } }] (flat [27, 120]) := by
    have h : Gives {} 0 [.key { vk := 88, ch := 120, flags := { lalt := true } }] _ := .chars (cs := [27, 120]) (by decide +kernel) (by simp [Spec.Unit]) .nil
    rwa [show heard ({} : Cfg).keys ([27, 120].flatMap Clink.Utf.specUtf8) ++ [] = flat [27, 120] by decide +kernel] at h
  refine .key (vs := [[0xE9]]) g1 (by decide) ?_ (.key (vs := [[27, 91, 65]]) g2 (by decide) ?_ (.quiet ?_ (.key (vs := [[27, 120]]) g3 (by decide) ?_ .nil)))
  · intro v hv
    cases List.mem_singleton.1 hv
    exact .text (by simp [Ecma48.Spec.Printable]) (by simp [Clink.Utf.IsText])
  · intro v hv
    cases List.mem_singleton.1 hv
    exact .csi ⟨[], [], 65, rfl, by simp, by simp, by simp [Ecma48.Spec.Final]⟩ (Or.inl (by decide))
  · show act {} false true _ = _
    decide +kernel
  · intro v hv
    cases List.mem_singleton.1 hv
    exact .lower (by decide) (by decide)

/-- What `C58_answer` says for this, with `b` typed after the answer. -/
example : ∃ n m, inputs (run {} (asked {} [27, 91, 63] (some 121) (exTyped ++ sent reply ++ [.key { vk := 66, ch := 98 }])).1 (rounds n m)).2 =
    [.byte 195, .byte 169, .byte 27, .byte 91, .byte 65, .byte 27, .byte 120, .byte 98] := by
  have hB : Gives {} 0 [.key { vk := 66, ch := 98 }] [98] := by
    have h : Gives {} 0 [.key { vk := 66, ch := 98 }] _ := .chars (cs := [98]) (by decide +kernel) (by simp [Spec.Unit]) .nil
    rwa [show heard ({} : Cfg).keys ([98].flatMap Clink.Utf.specUtf8) ++ [] = [98] by decide +kernel] at h
  obtain ⟨_, _, n, m, h⟩ := C58_answer (g := {}) (fun _ h => (by cases h)) (K := []) (bK := []) .nil (ops := []) (by simp) rfl (pre := [27, 91, 63]) (f := 121)
    ⟨[63], rfl⟩ exTyped_typed (sent_sent {} rfl) reply_csi.1 reply_csi.2 hB (first := 13) (time := fun _ => 13) ⟨by decide, fun _ => by decide⟩ (by decide) (by decide +kernel)
    (ops2 := []) (by simp)
  refine ⟨n, m, ?_⟩
  have e : asked {} [27, 91, 63] (some 121) (exTyped ++ sent reply ++ [.key { vk := 66, ch := 98 }]) =
    request {} [27, 91, 63] (some 121) 13 (fun _ => 13) (after {} [] [] (exTyped ++ sent reply ++ [.key { vk := 66, ch := 98 }])) := rfl
  rw [e]
  exact h
example : (asked {} [27, 91, 63] (some 121) (exTyped ++ sent reply)).2 = reply ∧
    readAll {} (asked {} [27, 91, 63] (some 121) (exTyped ++ sent reply)).1 = [.byte 195, .byte 169, .byte 27, .byte 91, .byte 65, .byte 27, .byte 120] := by
  decide +kernel
/-- The answer is late: its beginning comes in time, the rest does not. -/
example : (request {} [27, 91, 63] (some 121) 9 (fun i => if i < 4 then 9 else 0) { queue := exTyped ++ sent reply }).2 = [] ∧
    readAll {} (request {} [27, 91, 63] (some 121) 9 (fun i => if i < 4 then 9 else 0) { queue := exTyped ++ sent reply }).1 =
      readAll {} { queue := exTyped ++ sent reply } := by decide +kernel
/-- The hypotheses of `C58_kept`: the keys above. -/
example : (∀ r ∈ exTyped, PlainEsc r) ∧ (asked {} [27, 91, 63] (some 121) exTyped).2 = [] :=
  ⟨by simp [exTyped, PlainEsc], by decide +kernel⟩
/-- A change of the size is kept: it is not part of the answer. -/
example : (asked {} [27, 91, 63] (some 121) (.size true :: sent reply)).1.pending.length = 1 := by decide +kernel

end Clink.TermReq
