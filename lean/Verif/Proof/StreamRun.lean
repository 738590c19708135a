import Verif.Proof.StreamRead

/-! A session stream behaves like a file. -/

namespace Clink.Stream

open Spec

variable {k : Cfg} {d : Data}

theorem decode_line {w : List Nat} (h : 10 ∉ w) : decode (w ++ [10]) = body true w ++ [10] := by
  unfold body
  by_cases h13 : w.getLast? = some 13
  · rw [if_pos ⟨rfl, h13⟩]
    obtain ⟨w', rfl⟩ := List.getLast?_eq_some_iff.1 h13
    rw [List.append_assoc, decode_append _ w' _ (Nat.le_refl _) (.inr (by simp)), decode_id w' fun h' => h (by simp [h'])]
    simp [decode]
  · rw [if_neg fun h => h13 h.2, decode_append _ w _ (Nat.le_refl _) (.inl h13), decode_id w h]
    rfl

theorem dec_line (text : Bool) {w : List Nat} (h : 10 ∉ w) : dec text (w ++ [10]) = body text w ++ [10] := by
  cases text with
  | true => exact decode_line h
  | false => simp [dec, body]

theorem body_no (text : Bool) {w : List Nat} (h : 10 ∉ w) : 10 ∉ body text w := by
  unfold body
  split
  · exact fun h' => h ((List.dropLast_sublist _).mem h')
  · exact h

theorem divides_line (text : Bool) (w r : List Nat) : Divides text (w ++ 10 :: r) (w ++ [10]) r := by
  refine ⟨by simp, ?_⟩
  rw [show w ++ 10 :: r = (w ++ [10]) ++ r by simp]
  unfold dec
  split
  · exact decode_append _ _ _ (Nat.le_refl _) (.inl (by simp))
  · rfl

theorem dec_no (text : Bool) {l : List Nat} (h : 10 ∉ l) : dec text l = l := by
  unfold dec
  split
  · exact decode_id l h
  · rfl

/-- What is needed of one thing that is read. -/
def ReadOk (k : Cfg) (text : Bool) (l : List Nat) (fmt : Fmt) (p : Val × Bool × Nat) : Prop :=
  p.2.2 ≤ l.length ∧ (p.2.1 = true → p.1 ≠ .nil ∧ Reads k.num text l fmt p.1 (l.drop p.2.2)) ∧ (p.2.1 = false → Reads k.num text l fmt .nil (l.drop p.2.2))

theorem readFmt_go (hk : k.Ok) {text cut : Bool} {l c : List Nat} {fmt : Fmt} (hl : l.length < k.max) (hf : Fine k.buf text cut l fmt)
    (hc : cut = false → l ≠ [] → c = l.takeWhile (· != 0)) : ReadOk k text l fmt (readFmt k text l c fmt) := by
  have hbuf := hk.buf
  have hmax := hk.max
  have hline : ∀ chop fmt, (fmt = if chop then Fmt.line else Fmt.lineEnd) → Fine k.buf text cut l fmt →
      ReadOk k text l fmt (.str (readLine k.buf text chop l []).1, (readLine k.buf text chop l []).2.1, (readLine k.buf text chop l []).2.2) := by
    intro chop fmt hfmt hf
    have hf : ∀ u v, Divides text l u v → IsLine (dec text u) v → 0 ∉ u ∧ (text = true → ∀ w, u = w ++ [13, 10] → (w.length + 1) % (k.buf - 1) ≠ 0) := by
      cases chop <;> (simp only [Bool.false_eq_true, if_false, if_true] at hfmt; subst hfmt; exact hf)
    by_cases h10 : 10 ∈ l
    · obtain ⟨w, r, rfl, hw⟩ := List.eq_append_cons_of_mem h10
      obtain ⟨h0, hcr⟩ := hf (w ++ [10]) r (divides_line text w r) (.inl ⟨_, dec_line text hw, body_no text hw⟩)
      have h0 : 0 ∉ w := fun h => h0 (by simp [h])
      rw [readLine_line hk.buf text chop _ w [] r (Nat.le_refl _) hw h0 (fun ht w' hw' => hcr ht w' (by simp [hw']))]
      have hd : (w ++ 10 :: r).drop (w.length + 1) = r := by
        rw [show w ++ 10 :: r = (w ++ [10]) ++ r by simp, show w.length + 1 = (w ++ [10]).length by simp, List.drop_left]
      refine ⟨by simp, fun _ => ⟨by simp, ?_⟩, fun h => by simp at h⟩
      dsimp only
      rw [hd, List.nil_append]
      cases chop with
      | true =>
        simp only [if_true] at hfmt
        subst hfmt
        rw [if_pos rfl, List.append_nil]
        exact .line (divides_line text w r) (dec_line text hw) (body_no text hw)
      | false =>
        simp only [Bool.false_eq_true, if_false] at hfmt
        subst hfmt
        rw [if_neg (by simp)]
        exact .lineEnd (divides_line text w r) (dec_line text hw) (body_no text hw)
    · obtain ⟨h0, -⟩ := hf l [] ⟨by simp, by rw [dec_nil, List.append_nil]⟩ (.inr ⟨by rw [dec_no text h10]; exact h10, rfl⟩)
      rw [readLine_last hk.buf text chop _ l [] (Nat.le_refl _) h10 h0]
      have hr : Reads k.num text l fmt (if dec text l = [] then .nil else .str (dec text l)) [] := by
        cases chop
        · simp only [Bool.false_eq_true, if_false] at hfmt
          subst hfmt
          exact .lastEnd h10
        · simp only [if_true] at hfmt
          subst hfmt
          exact .last h10
      rw [dec_no text h10] at hr
      refine ⟨Nat.le_refl _, fun h => ⟨by simp, ?_⟩, fun h => ?_⟩
      · dsimp only at h ⊢
        rw [if_neg (by simpa using h)] at hr
        rw [List.drop_length, List.nil_append]
        exact hr
      · dsimp only at h ⊢
        rw [if_pos (by simpa using h)] at hr
        rw [List.drop_length]
        exact hr
  match fmt, hf with
  | .chars 0, hf => exact absurd rfl hf
  | .chars (n + 1), hf =>
    obtain ⟨i1, i2, i3, i4, i5⟩ := read_go text (min (n + 1) k.max) l
    have hr : Reads k.num text l (.chars (n + 1)) (if (read text (min (n + 1) k.max) l).1 = [] then .nil else .str (read text (min (n + 1) k.max) l).1)
        (l.drop (read text (min (n + 1) k.max) l).2) := by
      have h1 := dec_length text (l.take (read text (min (n + 1) k.max) l).2)
      rw [← i3, List.length_take] at h1
      have := Reads.chars (num := k.num) i2 (n := n + 1) (by rw [← i3]; omega) (by
        rw [← i3]
        intro h
        exact i5 (by omega))
      rw [← i3] at this
      exact this
    refine ⟨i1, fun h => ⟨by simp [readFmt], ?_⟩, fun h => ?_⟩
    · simp only [readFmt] at h ⊢
      rw [if_neg (by simpa using h)] at hr
      exact hr
    · simp only [readFmt] at h ⊢
      rw [if_pos (by simpa using h)] at hr
      exact hr
  | .line, hf => exact hline true .line rfl hf
  | .lineEnd, hf => exact hline false .lineEnd rfl hf
  | .all, _ =>
    unfold readFmt
    dsimp only
    rw [readAll_go (by omega) text _ _ l (Nat.le_refl _) (by omega)]
    refine ⟨Nat.le_refl _, fun _ => ⟨by simp, ?_⟩, fun h => by simp at h⟩
    dsimp only
    rw [List.drop_length]
    exact .all
  | .number, hf =>
    simp only [readFmt]
    split
    · rename_i h
      subst h
      exact ⟨Nat.le_refl _, fun h => by simp at h, fun _ => .none hk.empty⟩
    · rename_i h
      rw [hc hf h]
      split
      · rename_i v n hv
        have h1 := hk.len _ _ _ hv
        have h2 : (l.takeWhile (· != 0)).length ≤ l.length := (List.takeWhile_sublist _).length_le
        exact ⟨by dsimp only; omega, fun _ => ⟨by simp, .number hv⟩, fun h => by simp at h⟩
      · rename_i hv
        exact ⟨Nat.zero_le _, fun h => by simp at h, fun _ => .none hv⟩

theorem takeWhile_stop : ∀ (a b : List Nat), (a ++ 0 :: b).takeWhile (· != 0) = a.takeWhile (· != 0)
  | [], b => by simp
  | c :: a, b => by
    rw [List.cons_append, List.takeWhile_cons, List.takeWhile_cons, takeWhile_stop a b]

theorem rel_rest {f : File} (h : Rel k d f) (off : Nat) : d.rest off = f.bytes.drop off := by
  rw [h.bytes]; rfl

theorem rel_cstr {f : File} (h : Rel k d f) (off : Nat) (hc : f.cut = false) (hr : f.bytes.drop off ≠ []) : d.cstr off = (f.bytes.drop off).takeWhile (· != 0) := by
  have hlen : f.bytes.length = d.size := by rw [h.bytes, h.inv.file]
  have ho : off < d.size := by
    rcases Nat.lt_or_ge off d.size with h1 | h1
    · exact h1
    · exact absurd (List.drop_eq_nil_of_le (by omega)) hr
  rcases h.term hc with ht | ht
  · omega
  · obtain ⟨hl, he⟩ := List.getElem?_eq_some_iff.1 ht
    unfold Data.cstr
    rw [h.bytes]
    have hm : d.mem = d.file ++ 0 :: d.mem.drop (d.size + 1) := by
      unfold Data.file
      rw [← he, ← List.drop_eq_getElem_cons hl, List.take_append_drop]
    conv => lhs; rw [hm]
    rw [List.drop_append_of_le_length (by rw [h.inv.file]; omega), takeWhile_stop]

theorem readFmts_go (hk : k.Ok) {f : File} (h : Rel k d f) (text : Bool) : ∀ (fmts : List Fmt) (off : Nat),
    ReadsAll k text f off fmts (readFmts k text d off fmts).1 (readFmts k text d off fmts).2
  | [], off => .done
  | fmt :: fs, off => by
    by_cases hf : Fine k.buf text f.cut (f.bytes.drop off) fmt
    · have hb := hk.buf
      have hm := hk.max
      have hlen : f.bytes.length = d.size := by rw [h.bytes, h.inv.file]
      obtain ⟨i1, i2, i3⟩ := readFmt_go hk (c := d.cstr off) (by
        have := h.inv.max
        rw [List.length_drop, hlen]
        rcases h.inv.size with h1 | ⟨-, h1⟩ <;> omega) hf (rel_cstr h off)
      unfold readFmts
      dsimp only
      rw [rel_rest h]
      generalize readFmt k text (f.bytes.drop off) (d.cstr off) fmt = p at i1 i2 i3
      have hp : (f.bytes.drop off).length - ((f.bytes.drop off).drop p.2.2).length = p.2.2 := by
        rw [List.length_drop (l := f.bytes.drop off)]; omega
      split
      · rename_i hok
        obtain ⟨j1, j2⟩ := i2 hok
        refine .next hf j2 j1 ?_
        rw [hp]
        exact readFmts_go hk h text fs _
      · rename_i hok
        have := ReadsAll.fail (k := k) (fs := fs) hf (i3 (by simpa using hok))
        rw [hp] at this
        exact this
    · exact .unspecified hf

theorem seek_go (hk : k.Ok) (size off : Nat) (w : Whence) (b : Int) : Seeks k.max size off w b (seekTo k size off w b) := by
  have hm := hk.word
  unfold Seeks seekTo
  dsimp only
  intro h1 h2
  cases w <;> simp only at h1 h2 ⊢ <;> omega

theorem head_cons {l : List Nat} {c : Nat} (h : l.head? = some c) : ∃ r, l = c :: r := by
  cases l with
  | nil => simp at h
  | cons a r => simp at h; exact ⟨r, by rw [h]⟩

theorem mode_go (m : List Nat) (f : Flags) (clear : Bool) : parseMode m = some (f, clear) ↔ Mode m f clear := by
  constructor
  · intro h
    match m with
    | [] => simp [parseMode] at h
    | c :: m =>
      unfold parseMode at h
      by_cases h1 : c = 114
      · subst h1
        by_cases h2 : m.head? = some 43
        · obtain ⟨m, rfl⟩ := head_cons h2
          by_cases h4 : m.head? = some 98
          · obtain ⟨m, rfl⟩ := head_cons h4
            simp at h
            obtain ⟨rfl, rfl, rfl⟩ := h
            exact ⟨"r+", by decide, by decide⟩
          · simp [h4] at h
            obtain ⟨rfl, rfl, rfl⟩ := h
            exact ⟨"r+", by decide, by decide⟩
        · by_cases h4 : m.head? = some 98
          · obtain ⟨m, rfl⟩ := head_cons h4
            simp at h
            obtain ⟨rfl, rfl, rfl⟩ := h
            exact ⟨"r", by decide, by decide⟩
          · simp [h2, h4] at h
            obtain ⟨rfl, rfl, rfl⟩ := h
            exact ⟨"r", by decide, by decide⟩
      · by_cases h1' : c = 119
        · subst h1'
          by_cases h2 : m.head? = some 43
          · obtain ⟨m, rfl⟩ := head_cons h2
            by_cases h3 : m.head? = some 120
            · obtain ⟨m, rfl⟩ := head_cons h3
              by_cases h4 : m.head? = some 98
              · obtain ⟨m, rfl⟩ := head_cons h4
                simp at h
                obtain ⟨rfl, rfl, rfl⟩ := h
                exact ⟨"w+x", by decide, by decide⟩
              · simp [h4] at h
                obtain ⟨rfl, rfl, rfl⟩ := h
                exact ⟨"w+x", by decide, by decide⟩
            · by_cases h4 : m.head? = some 98
              · obtain ⟨m, rfl⟩ := head_cons h4
                simp at h
                obtain ⟨rfl, rfl, rfl⟩ := h
                exact ⟨"w+", by decide, by decide⟩
              · simp [h3, h4] at h
                obtain ⟨rfl, rfl, rfl⟩ := h
                exact ⟨"w+", by decide, by decide⟩
          · by_cases h3 : m.head? = some 120
            · obtain ⟨m, rfl⟩ := head_cons h3
              by_cases h4 : m.head? = some 98
              · obtain ⟨m, rfl⟩ := head_cons h4
                simp at h
                obtain ⟨rfl, rfl, rfl⟩ := h
                exact ⟨"wx", by decide, by decide⟩
              · simp [h4] at h
                obtain ⟨rfl, rfl, rfl⟩ := h
                exact ⟨"wx", by decide, by decide⟩
            · by_cases h4 : m.head? = some 98
              · obtain ⟨m, rfl⟩ := head_cons h4
                simp at h
                obtain ⟨rfl, rfl, rfl⟩ := h
                exact ⟨"w", by decide, by decide⟩
              · simp [h2, h3, h4] at h
                obtain ⟨rfl, rfl, rfl⟩ := h
                exact ⟨"w", by decide, by decide⟩
        · by_cases h1'' : c = 97
          · subst h1''
            by_cases h2 : m.head? = some 43
            · obtain ⟨m, rfl⟩ := head_cons h2
              by_cases h4 : m.head? = some 98
              · obtain ⟨m, rfl⟩ := head_cons h4
                simp at h
                obtain ⟨rfl, rfl, rfl⟩ := h
                exact ⟨"a+", by decide, by decide⟩
              · simp [h4] at h
                obtain ⟨rfl, rfl, rfl⟩ := h
                exact ⟨"a+", by decide, by decide⟩
            · by_cases h4 : m.head? = some 98
              · obtain ⟨m, rfl⟩ := head_cons h4
                simp at h
                obtain ⟨rfl, rfl, rfl⟩ := h
                exact ⟨"a", by decide, by decide⟩
              · simp [h2, h4] at h
                obtain ⟨rfl, rfl, rfl⟩ := h
                exact ⟨"a", by decide, by decide⟩
          · simp [h1, h1', h1''] at h
  · rintro ⟨t, ht, rfl⟩
    obtain ⟨a, b, c, e, g, x⟩ := f
    simp only [modes, List.mem_cons, Prod.mk.injEq, Flags.mk.injEq, List.not_mem_nil, or_false] at ht
    rcases ht with ht | ht | ht | ht | ht | ht | ht | ht <;>
      (obtain ⟨rfl, ⟨rfl, rfl, rfl, rfl, rfl, -⟩, rfl⟩ := ht; cases x <;> decide)

/-- The states of the code and of the specification. -/
structure Sim (k : Cfg) (s : State) (t : Spec.State) : Prop where
  handles : t.handles = s.handles
  some_ : ∀ n d, s.streams n = some d → ∃ f, t.files n = some f ∧ Rel k d f
  none_ : ∀ n, s.streams n = none → t.files n = none
  named : ∀ x ∈ s.handles, ∃ d, s.streams x.name = some d

theorem rel_new : Rel k {} {} := ⟨⟨.inr ⟨rfl, rfl⟩, Nat.zero_le _⟩, rfl, fun _ => .inl rfl⟩

theorem sim_set {s : State} {t : Spec.State} (h : Sim k s t) {n : List Nat} {d : Data} {f : File} (hr : Rel k d f) {hs : List Handle}
    (hh : ∀ x ∈ hs, x.name = n ∨ ∃ d, s.streams x.name = some d) : Sim k ⟨setData s.streams n d, hs⟩ ⟨setFile t.files n f, hs⟩ := by
  refine ⟨rfl, ?_, ?_, ?_⟩
  · intro m e he
    simp only [setData, setFile] at he ⊢
    split at he
    · rw [if_pos ‹_›]; cases he; exact ⟨f, rfl, hr⟩
    · rw [if_neg ‹_›]; exact h.some_ m e he
  · intro m he
    simp only [setData, setFile] at he ⊢
    split at he
    · cases he
    · rw [if_neg ‹_›]; exact h.none_ m he
  · intro x hx
    simp only [setData]
    split
    · exact ⟨d, rfl⟩
    · rcases hh x hx with h1 | h1
      · contradiction
      · exact h1

theorem named_set {s : State} {t : Spec.State} (h : Sim k s t) {i : Nat} {x y : Handle} (hx : s.handles[i]? = some x) (hy : y.name = x.name) :
    ∀ z ∈ s.handles.set i y, ∃ d, s.streams z.name = some d := by
  intro z hz
  rcases List.mem_or_eq_of_mem_set hz with h1 | h1
  · exact h.named z h1
  · subst h1
    rw [hy]
    exact h.named x (List.mem_of_getElem? hx)

theorem sim_handles {s : State} {t : Spec.State} (h : Sim k s t) {hs : List Handle} (hh : ∀ x ∈ hs, ∃ d, s.streams x.name = some d) :
    Sim k ⟨s.streams, hs⟩ ⟨t.files, hs⟩ := ⟨rfl, h.some_, h.none_, hh⟩

theorem on_go {s : State} {t : Spec.State} (h : Sim k s t) {i : Nat} {g : Handle → Data → State × Out} {P : State × Out → Prop}
    (h1 : (∀ x, t.handles[i]? = some x → ¬ x.live) → P (s, .error))
    (h2 : ∀ x d f, s.handles[i]? = some x → t.handles[i]? = some x → x.live → s.streams x.name = some d → t.files x.name = some f → Rel k d f → P (g x d)) : P (s.on i g) := by
  unfold State.on
  split
  · rename_i hx
    exact h1 fun x hx' => by rw [h.handles, hx] at hx'; cases hx'
  · rename_i x hx
    split
    · rename_i hl
      refine h1 fun y hy => ?_
      rw [h.handles, hx] at hy
      cases hy
      simpa using hl
    · rename_i hl
      split
      · rename_i hn
        obtain ⟨d, hd⟩ := h.named x (List.mem_of_getElem? hx)
        rw [hn] at hd; cases hd
      · rename_i d hd
        obtain ⟨f, hf, hr⟩ := h.some_ _ _ hd
        exact h2 x d f hx (by rw [h.handles]; exact hx) (by simpa using hl) hd hf hr

theorem step_go (hk : k.Ok) {s : State} {t : Spec.State} (h : Sim k s t) (op : Op) :
    ∃ t', Step k t op t' (s.step k op).2 ∧ Sim k (s.step k op).1 t' := by
  cases op with
  | opens name mode =>
    unfold State.step
    dsimp only
    split
    · rename_i hn
      refine ⟨t, .mode fun f c hc => ?_, h⟩
      rw [(mode_go _ _ _).2 hc] at hn
      cases hn
    · rename_i f clear hmode
      have hmode := (mode_go _ _ _).1 hmode
      unfold State.make
      split
      · rename_i d hd
        obtain ⟨g, hg, hr⟩ := h.some_ _ _ hd
        split
        · rename_i ho
          exact ⟨t, .exists_ hmode (by rw [hg]; simp) ho, h⟩
        · rename_i ho
          refine ⟨_, by
            have := Step.opens (k := k) (s := t) hmode (fun h => by rw [hg] at h; cases h) (fun _ => ho)
            rw [h.handles] at this
            exact this, ?_⟩
          rw [hg]
          refine sim_set h (by cases clear <;> first | exact hr | exact rel_new) ?_
          intro x hx
          rw [List.mem_append] at hx
          rcases hx with hx | hx
          · exact .inr (h.named x hx)
          · rw [List.mem_singleton] at hx; subst hx; exact .inl rfl
      · rename_i hn
        have hn' := h.none_ _ hn
        split
        · rename_i hc
          refine ⟨_, by
            have := Step.opens (k := k) (s := t) hmode (fun _ => hc) (fun h => absurd hn' h)
            rw [h.handles] at this
            exact this, ?_⟩
          rw [hn']
          refine sim_set h (by cases clear <;> exact rel_new) ?_
          intro x hx
          rw [List.mem_append] at hx
          rcases hx with hx | hx
          · exact .inr (h.named x hx)
          · rw [List.mem_singleton] at hx; subst hx; exact .inl rfl
        · rename_i hc
          exact ⟨t, .missing hmode hn' hc, h⟩
  | write i args =>
    refine on_go h (P := fun p => ∃ t', Step k t (.write i args) t' p.2 ∧ Sim k p.1 t') (fun hx => ⟨t, .closed (.inr (.inr (.inl ⟨args, rfl⟩))) hx, h⟩) ?_
    intro x d f hx hx' hl hd hf hr
    split
    · rename_i hw
      exact ⟨t, .noWrite hx' hl (by simpa using hw), h⟩
    · rename_i hw
      obtain ⟨f', h1, h2⟩ := writeArgs_go hk x args d x.off f hr
      refine ⟨_, .write hx' hl hf (by simpa using hw) h1, ?_⟩
      rw [h.handles]
      exact sim_set h h2 fun z hz => .inr (named_set h hx (by rfl) z hz)
  | read i fmts =>
    refine on_go h (P := fun p => ∃ t', Step k t (.read i fmts) t' p.2 ∧ Sim k p.1 t') (fun hx => ⟨t, .closed (.inr (.inr (.inr (.inl ⟨fmts, rfl⟩)))) hx, h⟩) ?_
    intro x d f hx hx' hl hd hf hr
    split
    · rename_i hw
      exact ⟨t, .noRead hx' hl (by simpa using hw), h⟩
    · rename_i hw
      refine ⟨_, .read hx' hl hf (by simpa using hw) (readFmts_go hk hr _ _ _), ?_⟩
      rw [h.handles]
      exact sim_handles h fun z hz => named_set h hx (by rfl) z hz
  | seek i w b =>
    refine on_go h (P := fun p => ∃ t', Step k t (.seek i w b) t' p.2 ∧ Sim k p.1 t') (fun hx => ⟨t, .closed (.inr (.inr (.inr (.inr ⟨w, b, rfl⟩)))) hx, h⟩) ?_
    intro x d f hx hx' hl hd hf hr
    refine ⟨_, .seek hx' hl hf (by
      have := seek_go hk d.size x.off w b
      rw [← hr.inv.file, ← hr.bytes] at this
      rw [← hr.inv.file, ← hr.bytes]
      exact this), ?_⟩
    rw [h.handles, ← hr.inv.file, ← hr.bytes]
    exact sim_handles h fun z hz => named_set h hx (by rfl) z hz
  | truncate i =>
    refine on_go h (P := fun p => ∃ t', Step k t (.truncate i) t' p.2 ∧ Sim k p.1 t') (fun hx => ⟨t, .closed (.inr (.inl rfl)) hx, h⟩) ?_
    intro x d f hx hx' hl hd hf hr
    have hlen : f.bytes.length = d.size := by rw [hr.bytes, hr.inv.file]
    by_cases hw : x.flags.write = true
    · refine ⟨_, .truncate hx' hl hf hw, ?_⟩
      rw [h.handles]
      refine sim_set h ?_ fun z hz => .inr (h.named z hz)
      by_cases ho : x.off < d.size
      · rw [if_pos (by simp [hw, ho])]
        refine ⟨⟨.inl ?_, hr.inv.max⟩, ?_, fun hc => ?_⟩
        · have := hr.inv.size
          dsimp only; omega
        · dsimp only
          rw [hr.bytes]
          unfold Data.file
          dsimp only
          rw [List.take_take, Nat.min_eq_left (by omega)]
        · dsimp only at hc
          rw [hlen] at hc
          simp [ho] at hc
      · rw [if_neg (by simp [ho]), List.take_of_length_le (by omega), hlen, decide_eq_false ho, Bool.or_false]
        exact hr
    · refine ⟨t, .noTruncate hx' hl hw, ?_⟩
      rw [if_neg (by simp [hw])]
      have : setData s.streams x.name d = s.streams := by
        funext n
        unfold setData
        split
        · rename_i hn; rw [hn, hd]
        · rfl
      dsimp only
      rw [this]
      exact h
  | close i =>
    refine on_go h (P := fun p => ∃ t', Step k t (.close i) t' p.2 ∧ Sim k p.1 t') (fun hx => ⟨t, .closed (.inl rfl) hx, h⟩) ?_
    intro x d f hx hx' hl hd hf hr
    refine ⟨_, .close hx' hl, ?_⟩
    rw [h.handles]
    exact sim_handles h fun z hz => named_set (y := { x with live := false }) h hx rfl z hz

theorem run_go (hk : k.Ok) : ∀ (ops : List Op) {s : State} {t : Spec.State}, Sim k s t → Runs k t ops (s.run k ops)
  | [], _, _, _ => .nil
  | op :: ops, _, _, h => by
    obtain ⟨t', h1, h2⟩ := step_go hk h op
    exact .cons h1 (run_go hk ops h2)

theorem encode_head (l : List Nat) : (encode l).head? ≠ some 10 := by
  cases l with
  | nil => simp [encode]
  | cons c r =>
    unfold encode
    split
    · simp
    · simpa using ‹_›

theorem decode_encode : ∀ (l : List Nat), decode (encode l) = l
  | [] => rfl
  | c :: r => by
    unfold encode
    split
    · rename_i hc
      subst hc
      rw [decode, if_pos ⟨rfl, rfl⟩, decode_encode r]
    · rw [decode_cons, if_neg fun h => encode_head r h.2, decode_encode r]

end Clink.Stream
