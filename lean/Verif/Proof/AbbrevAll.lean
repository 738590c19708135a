import Verif.Proof.AbbrevLoop
/- Helper lemmas for C55: the whole function. -/
namespace Clink.Abbrev
open Spec Clink.Utf
open Clink.StrCompare (isSep)

variable {e : Env} {k : Disk}

/-- The directories, as typed. -/
def dirText (t : Typed) : List Nat := t.pieces.flatMap Piece.text

theorem letter_plain {c : Nat} (h : Letter c) : IsText c ∧ c ≠ 34 ∧ c < 128 := by
  unfold Letter at h; unfold IsText; omega

theorem drive_plain {t : Typed} (h : t.Ok) : Plain (driveText t.drive) := by
  cases hd : t.drive with
  | none => intro c hc; simp [driveText] at hc
  | some d =>
    have := letter_plain (h.drive d hd)
    intro c hc; simp [driveText] at hc
    rcases hc with rfl | rfl
    · exact ⟨this.1, this.2.1⟩
    · exact ⟨by decide, by decide⟩

theorem dirText_plain {t : Typed} (h : t.Ok) : Plain (dirText t) := by
  intro c hc
  unfold dirText at hc
  rw [List.mem_flatMap] at hc
  obtain ⟨p, hp, hc⟩ := hc
  exact (h.pieces p hp).plainText c hc

theorem text_plain {t : Typed} (h : t.Ok) : Plain t.text := by
  have := ((drive_plain h).append (dirText_plain h)).append ((plain_seps h.seps.2).append h.last.2)
  simpa [Typed.text, dirText] using this

theorem u8_drive {t : Typed} (h : t.Ok) : u8 (driveText t.drive) = driveText t.drive := by
  cases hd : t.drive with
  | none => rfl
  | some d =>
    have := (letter_plain (h.drive d hd)).2.2
    simp [driveText, u8, spec8_small this, spec8_small (show 58 < 128 by decide)]
theorem wide_drive {t : Typed} (h : t.Ok) : wide (driveText t.drive) = u16 (driveText t.drive) := by
  have := wide_u8 (drive_plain h).text
  rwa [u8_drive h] at this

theorem dirText_ne {t : Typed} (h : t.Ok) : dirText t ≠ [] := by
  obtain ⟨p, ps, hp, _⟩ := h.first
  have := (h.pieces p (by simp [hp])).some
  simp [dirText, hp, Piece.text, this]

/-- The text up to the last separator. -/
def headText (t : Typed) : List Nat := driveText t.drive ++ dirText t ++ t.seps.dropLast

theorem text_split {t : Typed} (h : t.Ok) : t.text = headText t ++ t.seps.getLast h.seps.1 :: t.last := by
  have := List.dropLast_concat_getLast h.seps.1
  unfold headText Typed.text dirText
  conv => lhs; rw [← this]
  simp

theorem head_sep {t : Typed} (h : t.Ok) : ∃ x y r, Path.cstr (u8 t.text) = x :: y :: r ∧ ¬ (isSep x = true ∧ isSep y = true) ∧
    (if x ≠ 0 ∧ y = 58 ∧ isLetter x = true then some [x, 58] else none) =
      (t.drive.map fun c => [c, 58] : Option (List Nat)) := by
  cases hd : t.drive with
  | some d =>
    have hl := h.drive d hd
    have hp := letter_plain hl
    have hs : isSep d = false := notSep (by intro hs; unfold Slash at hs; unfold Letter at hl; omega)
    refine ⟨d, 58, (u8 (dirText t ++ t.seps ++ t.last)) ++ [0], ?_, ?_, ?_⟩
    · have e : t.text = d :: 58 :: (dirText t ++ t.seps ++ t.last) := by
        simp [Typed.text, hd, driveText, dirText]
      rw [e]
      unfold Path.cstr u8
      simp [spec8_small hp.2.2, spec8_small (show 58 < 128 by decide)]
    · simp [hs]
    · have : d ≠ 0 := by have := hp.1.1; omega
      simp [this, (isLetter_iff d).2 hl]
  | none =>
    obtain ⟨p, ps, hp, hq, hf⟩ := h.first
    have hpo := h.pieces p (by simp [hp])
    obtain ⟨f1, f2⟩ := hf hd
    have e : t.text = p.text ++ (ps.flatMap Piece.text ++ t.seps ++ t.last) := by
      simp [Typed.text, hd, driveText, hp]
    cases hn : p.name with
    | nil => exact absurd hn hpo.some
    | cons c cs =>
      have hcs := notSep (hpo.name c (by simp [hn]))
      obtain ⟨b, bs, hb⟩ := List.exists_cons_of_ne_nil (uni8 c).1
      have hbs : isSep b = false := by rw [(uni8 c).2 b (by simp [hb])]; exact hcs
      cases hse : p.seps with
      | cons s ss =>
        rw [hse] at f1
        have : ss = [] := by cases ss with
          | nil => rfl
          | cons _ _ => simp at f1
        subst this
        have hss : Slash s := hpo.seps s (by simp [hse])
        have hs1 : s < 128 := by unfold Slash at hss; omega
        have hs2 : isLetter s = false := by
          unfold Slash at hss; rcases hss with rfl | rfl <;> rfl
        refine ⟨s, b, bs ++ (u8 (cs ++ (ps.flatMap Piece.text ++ t.seps ++ t.last)) ++ [0]), ?_, ?_, ?_⟩
        · rw [e, Piece.text, hse, hn]
          unfold Path.cstr u8
          simp [spec8_small hs1, hb]
        · simp [hbs]
        · simp [hs2]
      | nil =>
        have hne : ∃ y r', bs ++ (u8 (cs ++ (ps.flatMap Piece.text ++ t.seps ++ t.last)) ++ [0]) = y :: r' :=
          List.exists_cons_of_ne_nil (by simp)
        obtain ⟨y, r', hy⟩ := hne
        refine ⟨b, y, r', ?_, ?_, ?_⟩
        · rw [e, Piece.text, hse, hn, ← hy]
          unfold Path.cstr u8
          simp [hb]
        · simp [hbs]
        · simp only [Option.map_none]
          rw [if_neg]
          rintro ⟨h0, h58, hl⟩
          rw [isLetter_iff] at hl
          have hb1 : b = c ∧ c < 128 := by
            rcases spec8_bytes c b (by simp [hb]) with h | h
            · exact h
            · unfold Letter at hl; omega
          have hbs0 : bs = [] := by
            have := spec8_small hb1.2; rw [hb] at this; simpa using (congrArg List.tail this)
          subst hbs0
          subst h58
          cases cs with
          | nil =>
            -- the name is one letter and is followed by a separator
            have hnext : ∃ z w, ps.flatMap Piece.text ++ t.seps ++ t.last = z :: w ∧ Slash z := by
              cases ps with
              | nil =>
                cases hts : t.seps with
                | nil => exact absurd hts h.seps.1
                | cons z w => exact ⟨z, w ++ t.last, by simp, h.seps.2 z (by simp [hts])⟩
              | cons q qs =>
                have hq1 := hq q (by simp)
                cases hqs : q.seps with
                | nil => exact absurd hqs hq1
                | cons z w =>
                  exact ⟨z, w ++ q.name ++ (qs.flatMap Piece.text ++ t.seps ++ t.last), by simp [Piece.text, hqs],
                    (h.pieces q (by simp [hp])).seps z (by simp [hqs])⟩
            obtain ⟨z, w, hz, hzs⟩ := hnext
            have hz1 : z < 128 := by unfold Slash at hzs; omega
            rw [hz] at hy
            simp [u8, spec8_small hz1] at hy
            unfold Slash at hzs; omega
          | cons c2 cs =>
            have hc2 : c2 = 58 := by
              obtain ⟨b2, bs2, hb2⟩ := List.exists_cons_of_ne_nil (uni8 c2).1
              simp [u8, hb2] at hy
              rcases spec8_bytes c2 b2 (by simp [hb2]) with h | h <;> omega
            exact f2 hse ⟨c, cs, by rw [hn, hc2], hb1.1 ▸ hl⟩

theorem disambiguate_typed {t : Typed} (h : t.Ok) :
    disambiguate e (u8 t.text) =
      if (t.drive.map fun c => [c, 58] : Option (List Nat)).any (fun d => !e.usable d) = true then some ⟨[], u8 t.text, false⟩
      else match loop e (u8 (dirText t ++ t.seps.dropLast)) (u16 (driveText t.drive)) false with
        | none => some ⟨[], u8 t.text, false⟩
        | some r => some (finish (u8 t.text) (u8 t.text) (u8 (headText t)).length r) := by
  obtain ⟨x, y, r, hm, hxy, hdr⟩ := head_sep h
  obtain ⟨b1, b2, b3, b4⟩ := before_eq r hxy
  rw [hdr] at b4
  have hsl := h.seps.2 _ (List.getLast_mem h.seps.1)
  have hsl' := (isSep_iff _).2 hsl
  have hs1 : t.seps.getLast h.seps.1 < 128 := by unfold Slash at hsl; omega
  have hu : u8 t.text = u8 (headText t) ++ t.seps.getLast h.seps.1 :: u8 t.last := by
    rw [text_split h, u8_append]
    simp [u8, spec8_small hs1]
  have hnl : ∀ z ∈ u8 t.last, isSep z = false := by
    intro z hz
    unfold u8 at hz
    rw [List.mem_flatMap] at hz
    obtain ⟨c, hc, hz⟩ := hz
    rw [(uni8 c).2 z hz]; exact notSep (h.last.1 c hc)
  have hls : lastSep (u8 t.text) (u8 t.text).length = some (u8 (headText t)).length := by
    rw [hu]; exact lastSep_eq hsl' hnl
  have hhead : u8 (headText t) = driveText t.drive ++ u8 (dirText t ++ t.seps.dropLast) := by
    unfold headText
    rw [List.append_assoc, u8_append, u8_drive h]
  have hne : u8 (dirText t ++ t.seps.dropLast) ≠ [] := by
    rw [Ne, u8_inj_nil]; simp [dirText_ne h]
  have hlen : (driveText t.drive).length < (u8 (headText t)).length := by
    rw [hhead, List.length_append]
    have := List.length_pos_iff.2 hne
    omega
  obtain ⟨n, hn⟩ : ∃ n, (u8 (headText t)).length = n + 1 := ⟨(u8 (headText t)).length - 1, by omega⟩
  unfold disambiguate
  simp only [stripQuotes_plain (text_plain h), hls, hn]
  rw [hm]
  simp only [b1, b2, b3, b4, Option.bind_eq_bind, Option.bind_some, Option.isSome_none, Bool.false_eq_true, if_false,
    List.take_zero, List.nil_append]
  have hdt : (t.drive.map fun c => [c, 58] : Option (List Nat)).getD [] = driveText t.drive := by
    cases t.drive <;> rfl
  rw [hdt]
  have hge : ((driveText t.drive).length ≥ n + 1) = False := eq_false (by omega)
  simp only [hge, if_false]
  have htake : ((u8 t.text).take (n + 1)).drop (driveText t.drive).length = u8 (dirText t ++ t.seps.dropLast) := by
    rw [hu, ← hn, List.take_left, hhead, List.drop_left]
  rw [htake, wide_drive h]
  cases hany : (t.drive.map fun c => [c, 58] : Option (List Nat)).any (fun d => !e.usable d) with
  | true => rfl
  | false =>
    simp only [Bool.false_eq_true, if_false]
    cases loop e (u8 (dirText t ++ t.seps.dropLast)) (u16 (driveText t.drive)) false <;> rfl

end Clink.Abbrev
