import Verif.Model.Utf8Switch
import Verif.Proofs.Utf8Mono
import Verif.Proofs.Utf8Write
import Verif.Proofs.Utf8Same
import Verif.Proofs.Utf8Dynamic
import Verif.Props.DynamicWrite
import Verif.Props.Write
/-!
# Claim C155: what the check of UTF-8 takes part in

`compiled b C` is the library compiled with or without the macro
`HPP_PROTO_NO_UTF8_VALIDATION`, and evaluated at run time or by the compiler; `C.utf8` is the
external validator, which may be any function. `readBinpb` and `writeBinpb` are `read_binpb` and
`write_binpb`.
-/
namespace HppProto.Props
open HppProto HppProto.Spec HppProto.Utf8Switch

/-- C155. A string is refused exactly if its field asks for the check, the check is compiled in,
the call is evaluated at run time, and the validator rejects the string. -/
theorem C155_asked (b : Build) (isUtf8 : List Byte → Bool) (required : Bool) (str : List Byte) :
    validationFailed b isUtf8 required str = true ↔
      required = true ∧ b.noValidation = false ∧ b.constantEvaluated = false ∧ isUtf8 str = false := by
  obtain ⟨n, c⟩ := b
  cases n <;> cases c <;> cases required <;> simp [validationFailed]

/-- C155. The model's way of asking (the field's wish and the configuration's validator) is the
same as calling `utf8_validation_failed`. -/
theorem C155_compiled (b : Build) (C : Cfg) (required : Bool) (str : List Byte) :
    (required && !(compiled b C).utf8 str) = validationFailed b C.utf8 required str := by
  obtain ⟨n, c⟩ := b
  cases n <;> cases c <;> cases required <;> simp [compiled, validationFailed]

/-- C155. With the macro undefined and at run time, what is compiled is the library with the
check. -/
theorem C155_checked (C : Cfg) : compiled ⟨false, false⟩ C = C := by
  obtain ⟨S, f⟩ := C
  simp [compiled, validationFailed]

/-- C155, reading. Whatever the build, `read_binpb` with the check gives the same outcome as
`read_binpb` of that build, the same message included, or it refuses with `bad_message`. So
everything read with the check is read without it, to the same message. -/
theorem C155_read (b : Build) (C : Cfg) (limit id : Nat) (old : Msg) (buf : List Byte) :
    (readBinpb C limit id old buf = readBinpb (compiled b C) limit id old buf ∨
      readBinpb C limit id old buf = .err .badMessage) ∧
    (∀ m, readBinpb C limit id old buf = .ok m → readBinpb (compiled b C) limit id old buf = .ok m) := by
  have main : readBinpb C limit id old buf = readBinpb (compiled b C) limit id old buf ∨
      readBinpb C limit id old buf = .err .badMessage := by
    obtain ⟨S, f⟩ := C
    refine Utf8Mono.parseOnto_le (S := S) (fun bs h => ?_) limit id _ buf
    simp [validationFailed, h]
  refine ⟨main, fun m h => ?_⟩
  rcases main with e | e
  · rw [← e, h]
  · rw [h] at e; cases e

/-- C155, reading. What some build reads, the library with the check reads to the same message, or
refuses with `bad_message` because of a string that it found in the input: a contiguous part of it
that the validator rejects. -/
theorem C155_read_reason (b : Build) (C : Cfg) (limit id : Nat) (old m : Msg) (buf : List Byte)
    (h : readBinpb (compiled b C) limit id old buf = .ok m) :
    readBinpb C limit id old buf = .ok m ∨
    readBinpb C limit id old buf = .err .badMessage ∧ ∃ v, v <:+: buf ∧ C.utf8 v = false := by
  rcases (C155_read b C limit id old buf).1 with e | e
  · exact .inl (e.trans h)
  · by_cases hv : ∃ v, v <:+: buf ∧ C.utf8 v = false
    · exact .inr ⟨e, hv⟩
    · obtain ⟨S, f⟩ := C
      refine .inl (Utf8Same.parseOnto_mono (S := S) (fun v hi _ => ?_) h)
      cases hf : f v
      · exact absurd ⟨v, hi, hf⟩ hv
      · rfl

/-- C155, writing. Whatever the build, `write_binpb` with the check gives the same status and the
same bytes as that of the build, or it fails with `bad_message`. -/
theorem C155_write (b : Build) (C : Cfg) (hN : numbersOk C) (limit id : Nat) (m : Msg) (growable : Bool) (buf : List Byte)
    (hl : (wire C limit id m).length < 2 ^ 64) :
    (writeBinpb C limit growable id m buf = writeBinpb (compiled b C) limit growable id m buf ∨
      ∃ out, writeBinpb C limit growable id m buf = .ok (some .badMessage, out)) ∧
    (∀ out, writeBinpb C limit growable id m buf = .ok (none, out) →
      writeBinpb (compiled b C) limit growable id m buf = .ok (none, out)) := by
  have main : writeBinpb C limit growable id m buf = writeBinpb (compiled b C) limit growable id m buf ∨
      ∃ out, writeBinpb C limit growable id m buf = .ok (some .badMessage, out) := by
    obtain ⟨S, f⟩ := C
    refine Utf8Mono.write_le (S := S) (fun bs h => ?_) hN limit id m true growable buf hl
    simp [validationFailed, h]
  refine ⟨main, fun out h => ?_⟩
  rcases main with e | ⟨o, e⟩
  · rw [← e, h]
  · rw [h] at e; injection e with e; injection e with e; cases e

/-- C155, writing without the check: the write into a container succeeds exactly if the message
is not too deep and not too large, whatever is in its strings, and the bytes are the wire
encoding. -/
theorem C155_write_unchecked (b : Build) (off : b.noValidation = true ∨ b.constantEvaluated = true) (C : Cfg)
    (hN : numbersOk C) (limit id : Nat) (m : Msg) (buf : List Byte) (hl : (wire C limit id m).length < 2 ^ 64) :
    (∃ out, writeBinpb (compiled b C) limit true id m buf = .ok (none, out)) ↔
      nests C (limit + 1) id m ∧ (wire C limit id m).length < 2 ^ 31 - 1 := by
  have all : ∀ bs, (compiled b C).utf8 bs = true := by
    obtain ⟨n, c⟩ := b
    intro bs
    rcases off with e | e <;> simp only at e <;> subst e <;> simp [compiled, validationFailed]
  obtain ⟨S, f⟩ := C
  have E : wire (compiled b ⟨S, f⟩) limit id m = wire ⟨S, f⟩ limit id m := Utf8Mono.encode_eq _ _ _ _
  obtain ⟨h1, h2⟩ := C09_written_bytes (compiled b ⟨S, f⟩) hN limit id m buf (E ▸ hl)
  constructor
  · rintro ⟨out, h⟩
    obtain ⟨-, hn, -, hs⟩ := h1 out h
    exact ⟨Utf8Mono.nests_eq _ _ _ hn, E ▸ hs⟩
  · rintro ⟨hn, hs⟩
    exact ⟨_, h2 (Utf8Mono.nests_eq _ _ _ hn) (Utf8Mono.utf8Ok_all _ all _ _ _) (E ▸ hs)⟩

/-- C155. The outcomes do differ: the bytes of `b: "\xff"` are refused at run time and read by
the compiler; a message with that string is refused at run time and written by the compiler. -/
theorem C155_differ :
    readBinpb demoCfg 2 0 ⟨[], []⟩ [0x12, 0x01, 0xff] = .err .badMessage ∧
    (∃ m, readBinpb (compiled ⟨false, true⟩ demoCfg) 2 0 ⟨[], []⟩ [0x12, 0x01, 0xff] = .ok m ∧
      m.get 1 = [(0, .bytes [0xff])] ∧
      writeBinpb demoCfg 2 true 0 m [] = .ok (some .badMessage, [0, 0, 0]) ∧
      writeBinpb (compiled ⟨false, true⟩ demoCfg) 2 true 0 m [] = .ok (none, [0x12, 0x01, 0xff])) := by
  refine ⟨by with_unfolding_all rfl, ⟨[[(0, .num 0)], [(0, .bytes [0xff])], [], [], [], []], []⟩,
    by with_unfolding_all rfl, rfl, ?_, ?_⟩ <;> decide +kernel

/-- The hypotheses of the theorems on writing are met by the message of `Verif/Props/Demo.lean`,
and a valid string is read in both builds. -/
example : numbersOk demoCfg ∧ (wire demoCfg 2 0 demoMsg).length < 2 ^ 64 ∧ nests demoCfg 3 0 demoMsg ∧
    ∃ m, readBinpb demoCfg 2 0 ⟨[], []⟩ [0x12, 0x01, 0x41] = .ok m :=
  ⟨demo_numbersOk, by decide +kernel, demo_nests, _, by with_unfolding_all rfl⟩

/-- C155, dynamic messages: a string is refused exactly if its field asks for the check, the check
is compiled in, and the validator rejects the string; and the model's way of asking is the same. -/
theorem C155_dynamic_asked (off : Bool) (isUtf8 : List Byte → Bool) (required : Bool) (str : List Byte) :
    (dynValidationFailed off isUtf8 required str = true ↔ required = true ∧ off = false ∧ isUtf8 str = false) ∧
    (required && !dynCompiled off isUtf8 str) = dynValidationFailed off isUtf8 required str ∧
    dynCompiled false isUtf8 = isUtf8 := by
  refine ⟨?_, ?_, ?_⟩
  · cases off <;> cases required <;> simp [dynValidationFailed]
  · cases off <;> cases required <;> simp [dynCompiled, dynValidationFailed]
  · funext s; simp [dynCompiled, dynValidationFailed]

/-- C155, reading dynamic messages: with the check the outcome is that of either build, the same
message included, or the refusal `illegal_byte_sequence`; what is read with the check is read
without it, to the same message. -/
theorem C155_dynamic_read (off : Bool) (T : DynTypes) (isUtf8 : List Byte → Bool) (limit id : Nat) (old : DynMsg)
    (buf : List Byte) :
    (dynRead T isUtf8 limit id old buf = dynRead T (dynCompiled off isUtf8) limit id old buf ∨
      dynRead T isUtf8 limit id old buf = .err .illegalByteSequence) ∧
    (∀ m, dynRead T isUtf8 limit id old buf = .ok m → dynRead T (dynCompiled off isUtf8) limit id old buf = .ok m) := by
  have main : dynRead T isUtf8 limit id old buf = dynRead T (dynCompiled off isUtf8) limit id old buf ∨
      dynRead T isUtf8 limit id old buf = .err .illegalByteSequence := by
    refine Utf8Dynamic.read_le (fun bs h => ?_) limit id old buf
    cases off <;> simp [dynCompiled, dynValidationFailed, h]
  refine ⟨main, fun m h => ?_⟩
  rcases main with e | e
  · rw [← e, h]
  · rw [h] at e; cases e

/-- C155, writing dynamic messages: the status with the check is that of either build, or
`bad_message`; what is written with the check is written without it, as the same bytes. -/
theorem C155_dynamic_write (off : Bool) {T : DynTypes} (hT : ∀ id, (T id).Ok) (hP : ∀ id, (T id).Pooled)
    (numbers : LegalNumbers T) {id : Nat} {m : DynMsg} {M : Msg} (h : DynHolds T True id m M)
    (isUtf8 : List Byte → Bool) (limit : Nat) (growable : Bool) (buf : List Byte)
    (small : (wire (T.cfg isUtf8) limit id M).length < 2 ^ 64) :
    ∃ st out st' out', dynWrite T isUtf8 limit growable id m buf = .ok (st, out) ∧
      dynWrite T (dynCompiled off isUtf8) limit growable id m buf = .ok (st', out') ∧
      (st = st' ∨ st = some .badMessage) ∧ (st = none → st' = none ∧ out' = out) := by
  have E : wire (T.cfg (dynCompiled off isUtf8)) limit id M = wire (T.cfg isUtf8) limit id M := Utf8Mono.encode_eq _ _ _ _
  obtain ⟨st, o, out, h1, h2, h3⟩ := C65_same_bytes hT hP numbers h isUtf8 limit growable buf small
  obtain ⟨st', o', out', k1, k2, k3⟩ :=
    C65_same_bytes hT hP numbers h (dynCompiled off isUtf8) limit growable buf (E ▸ small)
  have main : writeBinpb (T.cfg isUtf8) limit growable id M buf =
      writeBinpb (T.cfg (dynCompiled off isUtf8)) limit growable id M buf ∨
      ∃ b, writeBinpb (T.cfg isUtf8) limit growable id M buf = .ok (some .badMessage, b) := by
    refine Utf8Mono.write_le (S := (T.cfg isUtf8).schema) (fun bs h => ?_) (cfg_numbersOk numbers isUtf8)
      limit id M true growable buf small
    cases off <;> simp [dynCompiled, dynValidationFailed, h]
  refine ⟨st, out, st', out', h2, k2, ?_⟩
  rw [h1, k1] at main
  rcases main with e | ⟨b, e⟩
  · cases e
    exact ⟨.inl rfl, fun hs => ⟨hs, (k3 hs).trans (h3 hs).symm⟩⟩
  · cases e
    exact ⟨.inr rfl, fun hs => nomatch hs⟩

theorem mapTypes_numbers : LegalNumbers mapTypes
  | 0 => by decide +kernel
  | 1 => by decide +kernel
  | 2 => by decide +kernel
  | _ + 3 => fun _ h => (nomatch h)

/-- The hypotheses are met by the history of `Verif/Props/DynamicWrite.lean`, one string of which
is checked. -/
example : (∀ id, (mapTypes id).Ok) ∧ (∀ id, (mapTypes id).Pooled) ∧ LegalNumbers mapTypes ∧ ∃ M, DynHolds mapTypes True 0 mapHistory M ∧
    (wire (mapTypes.cfg fun _ => false) 100 0 M).length < 2 ^ 64 ∧
    dynWrite mapTypes (fun _ => false) 100 true 0 mapHistory [] ≠
      dynWrite mapTypes (dynCompiled true fun _ => false) 100 true 0 mapHistory [] :=
  ⟨fun id => (mapTypes_ok id).1, fun id => (mapTypes_ok id).2, mapTypes_numbers, _, mapHistory_holds, by decide +kernel,
    by decide +kernel⟩

/-- A map entry with the string `"\xff"`, in both builds; and one with `"A"`. -/
example : dynRead mapTypes (fun bs => bs.all fun b => !b.msb) 100 0 [] [0x0a, 5, 8, 2, 0x12, 1, 0xff] =
      .err .illegalByteSequence ∧
    (∃ m, dynRead mapTypes (dynCompiled true fun bs => bs.all fun b => !b.msb) 100 0 [] [0x0a, 5, 8, 2, 0x12, 1, 0xff] =
      .ok m) ∧
    ∃ m, dynRead mapTypes (fun bs => bs.all fun b => !b.msb) 100 0 [] [0x0a, 5, 8, 2, 0x12, 1, 65] = .ok m :=
  ⟨by with_unfolding_all rfl, ⟨_, by with_unfolding_all rfl⟩, _, by with_unfolding_all rfl⟩

end HppProto.Props
