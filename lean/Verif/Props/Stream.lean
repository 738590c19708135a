import Verif.Proof.StreamRun
import Verif.Model.Color

/-!
C49: a session stream behaves like a file.
-/

namespace Clink.Stream

open Spec

variable {k : Cfg}

/-- Whatever is done with session streams, the results are those of files: of opening in any mode, of writing, reading, seeking, truncating and closing with any number of handles. -/
theorem C49_run (hk : k.Ok) (ops : List Op) : Runs k {} ops (State.run k {} ops) :=
  run_go hk ops ⟨rfl, fun _ _ h => (by cases h), fun _ _ => rfl, fun _ h => (by cases h)⟩

/-- The modes are those in the documentation, with or without `b`. -/
theorem C49_modes (m : List Nat) (f : Flags) (clear : Bool) : parseMode m = some (f, clear) ↔ Mode m f clear := mode_go m f clear

/-- A text is what it was after being written and read in text mode. -/
theorem C49_text (l : List Nat) : decode (encode l) = l := decode_encode l

theorem writes_all {fl : Flags} (ha : fl.append = false) : ∀ {args : List (List Nat)} {f f' : File} {pos' : Nat} {ok : Bool},
    WritesAll k fl f f.bytes.length args f' pos' ok → (f.bytes ++ args.flatMap (enc fl.text)).length < k.max →
    f'.bytes = f.bytes ++ args.flatMap (enc fl.text) ∧ ok = true
  | [], f, f', _, _, h, _ => by cases h; simp
  | b :: bs, f, f', pos', ok, h, hl => by
    simp only [List.flatMap_cons, List.length_append] at hl
    have key : ∀ {f1 pos1 ok1}, Writes k fl.text f f.bytes.length b f1 pos1 ok1 → f1.bytes = f.bytes ++ enc fl.text b ∧ pos1 = f1.bytes.length ∧ ok1 = true := by
      rintro f1 pos1 ok1 ⟨he, hp⟩
      rename_i e g
      rw [List.take_of_length_le (by omega)] at he
      subst he
      have : g = f.bytes ++ enc fl.text b := by
        cases hp with
        | «at» => rw [List.take_length, List.drop_eq_nil_of_le (by omega), List.append_nil]
        | behind h => omega
        | nothing h => rw [h, List.append_nil]
      subst this
      simp
    cases h with
    | next h1 h2 =>
      simp only [ha, Bool.false_eq_true, if_false] at h1
      obtain ⟨i1, i2, -⟩ := key h1
      subst i2
      obtain ⟨j1, j2⟩ := writes_all ha h2 (by rw [i1]; simp only [List.length_append]; omega)
      exact ⟨by rw [j1, i1, List.append_assoc, List.flatMap_cons], j2⟩
    | full h1 =>
      simp only [ha, Bool.false_eq_true, if_false] at h1
      obtain ⟨-, -, i3⟩ := key h1
      cases i3

theorem enc_flatten (text : Bool) : ∀ args : List (List Nat), args.flatMap (enc text) = enc text args.flatten
  | [] => by cases text <;> rfl
  | b :: bs => by rw [List.flatMap_cons, List.flatten_cons, enc_append, enc_flatten text bs]

theorem dec_enc (text : Bool) (l : List Nat) : dec text (enc text l) = l := by
  cases text
  · rfl
  · exact decode_encode l

/-- What is written to a new stream can be read again, if there is room for it. -/
theorem C49_round (hk : k.Ok) (name : List Nat) (args : List (List Nat)) (text : Bool) (hl : (args.flatMap (enc text)).length < k.max) :
    State.run k {} [.opens name (if text then [119, 43] else [119, 43, 98]), .write 0 args, .seek 0 .set 0, .read 0 [.all]] =
      [.stream 0, .ok, .pos 0, .values [.str args.flatten]] := by
  have hmode : Mode (if text then [119, 43] else [119, 43, 98]) { create := true, write := true, read := true, text := text } true :=
    ⟨"w+", by cases text <;> decide, by cases text <;> decide⟩
  have h := C49_run hk [.opens name (if text then [119, 43] else [119, 43, 98]), .write 0 args, .seek 0 .set 0, .read 0 [.all]]
  generalize State.run k {} _ = outs at h
  obtain _ | ⟨h1, h⟩ := h
  obtain _ | ⟨h2, h⟩ := h
  obtain _ | ⟨h3, h⟩ := h
  obtain _ | ⟨h4, h⟩ := h
  cases h
  cases h1 with
  | exists_ _ h => exact absurd rfl h
  | missing m _ h =>
    have := ((mode_go _ _ _).2 m).symm.trans ((mode_go _ _ _).2 hmode)
    cases this; simp at h
  | mode h => exact absurd hmode (h _ _)
  | closed h => simp at h
  | opens m _ _ =>
    have := ((mode_go _ _ _).2 m).symm.trans ((mode_go _ _ _).2 hmode)
    cases this
    cases h2 with
    | noWrite h _ hw => cases h; simp at hw
    | closed h hx =>
      simp at h
      subst h
      exact absurd rfl (hx _ rfl)
    | write hx _ hf _ hw =>
      cases hx
      simp only [setFile, if_true] at hf
      cases hf
      obtain ⟨i1, i2⟩ := writes_all (by rfl) hw (by simpa using hl)
      simp only [List.nil_append] at i1
      subst i2
      cases h3 with
      | closed h hx =>
        simp at h
        subst h
        exact absurd rfl (hx _ rfl)
      | @seek _ _ _ _ _ to hx _ hf hs =>
        cases hx
        simp only [setFile, if_true] at hf
        cases hf
        simp only [Seeks] at hs
        have := hs (by omega) (by omega)
        have h0 : to = 0 := by omega
        subst h0
        cases h4 with
        | noRead h _ hw => cases h; simp at hw
        | closed h hx =>
          simp at h
          subst h
          exact absurd rfl (hx _ rfl)
        | read hx _ hf _ hr =>
          cases hx
          simp only [setFile, if_true] at hf
          cases hf
          cases hr with
          | fail _ h => cases h
          | unspecified h => exact absurd trivial h
          | next _ h _ h' =>
            cases h
            cases h'
            simp only [List.drop_zero, i1, enc_flatten, dec_enc, if_true, List.length_nil, List.nil_append]

/-! Concrete streams, with the sizes of the code. -/

/-- A whole number without a sign. -/
def digits (l : List Nat) : Option (Nat × Nat) :=
  let t := l.takeWhile fun c => 48 ≤ c && c ≤ 57
  if t = [] then none else some (t.foldl (fun v c => v * 10 + (c - 48)) 0, t.length)

def real (junk : Nat) : Cfg := ⟨4194304, 512, fun _ => junk, digits⟩

theorem real_ok (junk : Nat) : (real junk).Ok where
  buf := by simp [real]
  max := by simp [real]
  word := by simp [real]
  len := by
    intro l v n h
    simp only [real, digits] at h
    split at h
    · cases h
    · cases h
      exact (List.takeWhile_sublist _).length_le
  empty := by rfl

def str (s : String) : List Nat := s.toList.map Char.toNat

/-- Writing behind the end leaves in between what was in the memory; a file would have NUL there. -/
theorem C49_gap_violated (ops : List Op) (h : ops = [.opens (str "a") (str "w+b"), .seek 0 .set 2, .write 0 [str "x"], .seek 0 .set 0, .read 0 [.all]]) :
    State.run (real 65) {} ops = [.stream 0, .pos 2, .ok, .pos 0, .values [.str (str "AAx")]] ∧
    State.run (real 66) {} ops = [.stream 0, .pos 2, .ok, .pos 0, .values [.str (str "BBx")]] := by
  subst h
  decide +kernel

/-- Writing nothing behind the end makes the stream longer; a file would stay as it is. -/
theorem C49_empty_violated : State.run (real 65) {} [.opens (str "a") (str "w+b"), .seek 0 .set 2, .write 0 [[]], .seek 0 .stop 0] = [.stream 0, .pos 2, .ok, .pos 2] := by
  decide +kernel

/-- Reading 0 bytes gives nil if there is something to read, and the empty string at the end; it should be the other way around. -/
theorem C49_zero_violated : State.run (real 0) {} [.opens (str "a") (str "w+"), .write 0 [str "abc"], .read 0 [.chars 0], .seek 0 .set 0, .read 0 [.chars 0]] =
    [.stream 0, .ok, .values [.str []], .pos 0, .values [.nil]] := by decide +kernel

/-- Seeking before the start goes to the limit of 4 MB instead of failing. -/
theorem C49_seek_violated : State.run (real 0) {} [.opens (str "a") (str "w+"), .seek 0 .cur (-1)] = [.stream 0, .pos 4194304] := by decide +kernel

/-- A line of 510 characters is read with a CR at its end. -/
theorem C49_cr_violated : State.run (real 0) {} [.opens (str "a") (str "w+"), .write 0 [List.replicate 510 97 ++ [10]], .seek 0 .set 0, .read 0 [.line]] =
    [.stream 0, .ok, .pos 0, .values [.str (List.replicate 510 97 ++ [13])]] := by decide +kernel

/-- What follows a NUL in a line is lost, and the next line is joined. -/
theorem C49_nul_violated : State.run (real 0) {} [.opens (str "a") (str "w+b"), .write 0 [[97, 0, 98, 10, 99, 10, 100]], .seek 0 .set 0, .read 0 [.line, .line]] =
    [.stream 0, .ok, .pos 0, .values [.str [97, 99], .str [100]]] := by decide +kernel

/-- After truncating, a number is read beyond the end. -/
theorem C49_number_violated : State.run (real 0) {} [.opens (str "a") (str "w+"), .write 0 [str "12"], .seek 0 .set 1, .truncate 0, .seek 0 .set 0, .read 0 [.number], .seek 0 .stop 0] =
    [.stream 0, .ok, .pos 1, .ok, .pos 0, .values [.num 12], .pos 1] := by decide +kernel

example : Runs (real 0) {} [.opens (str "a") (str "w+"), .write 0 [str "12"]] [.stream 0, .ok] := by
  have h := C49_run (real_ok 0) [.opens (str "a") (str "w+"), .write 0 [str "12"]]
  have e : State.run (real 0) {} [.opens (str "a") (str "w+"), .write 0 [str "12"]] = [.stream 0, .ok] := by decide +kernel
  rwa [e] at h

/-- What is read is determined: another result is not one of a file. -/
example : ¬ Reads digits true (str "one\r\ntwo") .line (.str (str "one\r")) (str "two") := by
  intro h
  cases h with
  | @line u _ _ hd hu _ =>
    obtain ⟨h1, -⟩ := hd
    have : u = str "one\r\n" := by
      rw [show str "one\r\ntwo" = str "one\r\n" ++ str "two" by decide] at h1
      exact (List.append_cancel_right h1).symm
    subst this
    exact absurd hu (by decide)

example : State.run (real 0) {} [.opens (str "b") (str "w+"), .write 0 [str "one\n", str "two"], .seek 0 .set 0, .read 0 [.all]] =
    [.stream 0, .ok, .pos 0, .values [.str (str "one\ntwo")]] := C49_round (real_ok 0) (str "b") [str "one\n", str "two"] true (by decide)

/-! The tests of the project, clink/lua/test/sessionstream.cpp. -/

example : State.run (real 0) {} [.opens (str "basic") (str "r"), .opens (str "basic") (str "w"), .write 0 [str "my data\n"], .close 0, .opens (str "basic") (str "r"), .read 1 [],
      .seek 1 .set 0, .read 1 [], .close 1, .read 1 []] =
    [.missing, .stream 0, .ok, .ok, .stream 1, .values [.str (str "my data")], .pos 0, .values [.str (str "my data")], .ok, .error] := by decide +kernel

example : State.run (real 0) {} [.opens (str "lf") (str "wb"), .write 0 [str "one\ntwo"], .opens (str "lf") (str "r"), .read 1 [], .opens (str "lf") (str "rb"), .read 2 [],
      .opens (str "crlf") (str "wb"), .write 3 [str "one\r\ntwo"], .opens (str "crlf") (str "r"), .read 4 [], .opens (str "crlf") (str "rb"), .read 5 []] =
    [.stream 0, .ok, .stream 1, .values [.str (str "one")], .stream 2, .values [.str (str "one")], .stream 3, .ok, .stream 4, .values [.str (str "one")], .stream 5,
      .values [.str (str "one\r")]] := by decide +kernel

example : State.run (real 0) {} [.opens (str "crlf") (str "w"), .write 0 [str "one\ntwo"], .opens (str "crlf") (str "rb"), .read 1 [], .opens (str "crlf") (str "r"), .read 2 [],
      .seek 2 .set 0, .read 2 [.chars 3, .chars 3], .seek 2 .set 0, .read 2 [.chars 2, .chars 4], .seek 2 .set 0, .read 2 [.chars 4, .chars 2], .seek 2 .set 0, .read 2 [.chars 6]] =
    [.stream 0, .ok, .stream 1, .values [.str (str "one\r")], .stream 2, .values [.str (str "one")], .pos 0, .values [.str (str "one"), .str (str "\ntw")], .pos 0,
      .values [.str (str "on"), .str (str "e\ntw")], .pos 0, .values [.str (str "one\n"), .str (str "tw")], .pos 0, .values [.str (str "one\ntw")]] := by decide +kernel

example : State.run (real 0) {} [.opens (str "p") (str "w"), .write 0 [str "some text"], .opens (str "p") (str "r+"), .read 1 [], .seek 1 .set 4, .write 1 [str "_"], .seek 1 .set 0,
      .read 1 [], .opens (str "p") (str "w+"), .read 2 [], .write 2 [str "abc"], .opens (str "p") (str "r+"), .read 3 []] =
    [.stream 0, .ok, .stream 1, .values [.str (str "some text")], .pos 4, .ok, .pos 0, .values [.str (str "some_text")], .stream 2, .values [.nil], .ok, .stream 3,
      .values [.str (str "abc")]] := by decide +kernel

example : State.run (real 0) {} [.opens (str "a") (str "a"), .write 0 [str "hello"], .seek 0 .set 0, .read 0 [], .seek 0 .stop (-1), .write 0 [str "world"], .seek 0 .set 0,
      .seek 0 .cur 3, .write 0 [str "xx"], .opens (str "a") (str "a+"), .read 1 [], .seek 1 .set 0, .write 1 [str "zz"], .seek 1 .set 0, .read 1 []] =
    [.stream 0, .ok, .pos 0, .badf, .pos 4, .ok, .pos 0, .pos 3, .ok, .stream 1, .values [.str (str "helloworldxx")], .pos 0, .ok, .pos 0,
      .values [.str (str "helloworldxxzz")]] := by decide +kernel

example : State.run (real 0) {} [.opens (str "x") (str "wx"), .opens (str "x+") (str "wx"), .opens (str "x") (str "wx"), .opens (str "x+") (str "wx"), .opens (str "x") (str "rx")] =
    [.stream 0, .stream 1, .exists_, .exists_, .error] := by decide +kernel

/-- A number, a line that ends with the stream, and a stream that is cut. -/
example : State.run (real 0) {} [.opens (str "n") (str "w+"), .write 0 [str "42 apples\nlast"], .seek 0 .set 0, .read 0 [.number, .lineEnd, .number, .line], .read 0 [.line], .read 0 [.line],
      .seek 0 .set 2, .truncate 0, .read 0 [.all], .seek 0 .set 0, .read 0 [.all]] =
    [.stream 0, .ok, .pos 0, .values [.num 42, .str (str " apples\n"), .nil], .values [.str (str "last")], .values [.nil], .pos 2, .ok, .values [.str []], .pos 0,
      .values [.str (str "42")]] := by decide +kernel

/-- There is no room for more than the limit. -/
example : State.run ⟨8, 4, fun _ => 0, digits⟩ {} [.opens (str "f") (str "w+"), .write 0 [str "abc", str "d\nefg", str "h"], .seek 0 .set 0, .read 0 [.all]] =
    [.stream 0, .failed, .pos 0, .values [.str (str "abcd\ne")]] := by decide +kernel

end Clink.Stream
