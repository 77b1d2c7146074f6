import Verif.Proofs.Write
import Verif.Props.Demo
/-!
# Claims C07–C09, C11–C13, C15: writing messages

Vocabulary (`Verif/Spec/Wire.lean`): `Spec.encode C isDefault d id m` is the protobuf wire
encoding of message `m` of type `id` for nesting depth up to `d`; `Spec.nests C d id m`
says that it has at most `d` levels; `Spec.utf8Ok` that the validator accepts its checked
strings; `Spec.numbersOk` that all field numbers are below 2^29. `limit` is the recursion
limit; the root is level 1, so `limit + 1` levels are allowed. `writeBinpb C limit
growable id m buf` is `write_binpb` into a buffer `buf`; its result is the status (`none`
for success) with the buffer afterwards, or `.ub`.
-/
namespace HppProto.Props
open HppProto HppProto.Spec

/-- Wire encoding with the field-omission rule of the code (`==` with the default, IEEE
for floats). -/
abbrev wire (C : Cfg) (limit id : Nat) (m : Msg) : List Byte := Spec.encode C isDefault (limit + 1) id m

theorem demo_numbersOk : numbersOk demoCfg := by
  intro id sd hsd
  match id with
  | 0 =>
    simp [demoCfg] at hsd
    rcases hsd with rfl | rfl | rfl | rfl | rfl | rfl <;> simp
  | 1 =>
    simp [demoCfg] at hsd
    rcases hsd with rfl | rfl <;> simp
  | 2 =>
    simp [demoCfg] at hsd
    rcases hsd with rfl <;> simp
  | _ + 3 => simp [demoCfg] at hsd

theorem demo_nests : nests demoCfg 3 0 demoMsg := (count_flag _ _ _ _).1 (by decide)

/-- The demo message meets all hypotheses used below: legal numbers, depth 3 (the oneof
member is on level 2), valid strings, and a 39-byte encoding. -/
example : numbersOk demoCfg ∧ nests demoCfg 3 0 demoMsg ∧ (wire demoCfg 2 0 demoMsg).length = 39 ∧
    writeBinpb demoCfg 2 true 0 demoMsg [1, 2, 3] = .ok (none, wire demoCfg 2 0 demoMsg) :=
  ⟨demo_numbersOk, demo_nests, by decide +kernel, by decide +kernel⟩

/-- C07. The size computed before writing (pass 2, on a cache of the size that pass 1
announces) is the number of bytes that pass 3 then writes; the writing pass never needs
more room even when it fails. -/
theorem C07_size_exact (C : Cfg) (hN : numbersOk C) (limit id : Nat) (m : Msg)
    (hd : nests C (limit + 1) id m) (hl : (wire C limit id m).length < 2 ^ 31 - 1) :
    ∃ size st ps stat,
      sizeMsg C (limit + 1) id m ⟨List.replicate (countMsg C (limit + 1) id m).1 0, 0⟩ = .ok (size, st) ∧
      serMsg C st.cache (limit + 1) id m 0 = (ps, stat) ∧
      size = (wire C limit id m).length ∧
      (stat = .fail → (piecesBytes ps).length ≤ size) ∧
      (stat ≠ .fail → (piecesBytes ps).length = size) := by
  have hs := size_run C hN hd (Nat.lt_of_lt_of_le hl (by decide))
  obtain ⟨r1, r2⟩ := ser_run C hN hd hl
  by_cases hu : utf8Ok C isDefault (limit + 1) id m
  · obtain ⟨ps, e1, e2⟩ := r1 hu
    exact ⟨_, _, ps, _, hs, e1, rfl, by simp, by simp [e2]⟩
  · obtain ⟨ps, e1, e2⟩ := r2 hu
    exact ⟨_, _, ps, _, hs, e1, rfl, fun _ => e2.length_le, by simp⟩

example : nests demoCfg 3 0 demoMsg ∧ (wire demoCfg 2 0 demoMsg).length < 2 ^ 31 - 1 :=
  ⟨demo_nests, by decide +kernel⟩

/-- C08. The cache that pass 1 sizes is filled completely by pass 2, which ends exactly at
its end, and read completely by pass 3 when it succeeds; neither pass leaves the cache
(`.ub`). That every length prefix is the length of its payload is part of C09. -/
theorem C08_size_cache (C : Cfg) (hN : numbersOk C) (limit id : Nat) (m : Msg)
    (hd : nests C (limit + 1) id m) (hl : (wire C limit id m).length < 2 ^ 31 - 1) :
    let n := (countMsg C (limit + 1) id m).1
    ∃ size st, sizeMsg C (limit + 1) id m ⟨List.replicate n 0, 0⟩ = .ok (size, st) ∧
      st.cache.length = n ∧ st.pos = n ∧
      (∃ ps, serMsg C st.cache (limit + 1) id m 0 = (ps, .ok n) ∨
             serMsg C st.cache (limit + 1) id m 0 = (ps, .fail)) := by
  have hs := size_run C hN hd (Nat.lt_of_lt_of_le hl (by decide))
  obtain ⟨r1, r2⟩ := ser_run C hN hd hl
  refine ⟨_, _, hs, by rw [count_nests C _ _ _ hd], rfl, ?_⟩
  by_cases hu : utf8Ok C isDefault (limit + 1) id m
  · obtain ⟨ps, e1, e2⟩ := r1 hu
    exact ⟨ps, .inl e1⟩
  · obtain ⟨ps, e1, e2⟩ := r2 hu
    exact ⟨ps, .inr e1⟩

/-- C08 for any call of `write_binpb` or `append_binpb`: no access outside the cache or the
buffer, whatever the message (below 2^64 bytes) and the buffer. -/
theorem C08_no_ub (C : Cfg) (hN : numbersOk C) (limit id : Nat) (m : Msg) (growable : Bool) (buf : List Byte)
    (hl : (wire C limit id m).length < 2 ^ 64) :
    ∃ st out, writeBinpb C limit growable id m buf = .ok (st, out) := by
  by_cases hd : nests C (limit + 1) id m
  · by_cases hmax : maxMessageSize ≤ (wire C limit id m).length
    · exact ⟨_, _, write_too_large C hN true growable buf hd hmax hl⟩
    · have hmax : (wire C limit id m).length < maxMessageSize := by omega
      cases growable with
      | true =>
        have hb := resize_grow (n := (wire C limit id m).length) buf hmax
        obtain ⟨k1, k2⟩ := write_ok C hN true true buf hd hmax hb (by rw [resizeTo_length]; exact Nat.le_refl _)
        by_cases hu : utf8Ok C isDefault (limit + 1) id m
        · exact ⟨_, _, k1 hu⟩
        · obtain ⟨b', e, _⟩ := k2 hu; exact ⟨_, _, e⟩
      | false =>
        have hb := resize_fixed (n := (wire C limit id m).length) buf hmax
        by_cases hr : (wire C limit id m).length > buf.length
        · rw [if_pos hr] at hb
          exact ⟨_, _, write_no_room C hN true false buf hd hmax hb⟩
        · rw [if_neg hr] at hb
          obtain ⟨k1, k2⟩ := write_ok C hN true false buf hd hmax hb (Nat.le_of_not_lt hr)
          by_cases hu : utf8Ok C isDefault (limit + 1) id m
          · exact ⟨_, _, k1 hu⟩
          · obtain ⟨b', e, _⟩ := k2 hu; exact ⟨_, _, e⟩
  · exact ⟨_, _, write_too_deep C true growable buf hd⟩

/-- C09. A successful write into a container leaves exactly the wire encoding in it,
whatever it held before; and the write does succeed when the message is not too deep, not
too large and its checked strings are valid. -/
theorem C09_written_bytes (C : Cfg) (hN : numbersOk C) (limit id : Nat) (m : Msg) (buf : List Byte)
    (hl : (wire C limit id m).length < 2 ^ 64) :
    (∀ out, writeBinpb C limit true id m buf = .ok (none, out) →
      out = wire C limit id m ∧ nests C (limit + 1) id m ∧ utf8Ok C isDefault (limit + 1) id m ∧
      (wire C limit id m).length < 2 ^ 31 - 1) ∧
    (nests C (limit + 1) id m → utf8Ok C isDefault (limit + 1) id m → (wire C limit id m).length < 2 ^ 31 - 1 →
      writeBinpb C limit true id m buf = .ok (none, wire C limit id m)) := by
  have main : nests C (limit + 1) id m → utf8Ok C isDefault (limit + 1) id m → (wire C limit id m).length < 2 ^ 31 - 1 →
      writeBinpb C limit true id m buf = .ok (none, wire C limit id m) := by
    intro hd hu hmax
    have hb := resize_grow (n := (wire C limit id m).length) buf hmax
    have := (write_ok C hN true true buf hd hmax hb (by rw [resizeTo_length]; exact Nat.le_refl _)).1 hu
    rw [writeBinpb, this]
    rw [List.drop_eq_nil_of_le (by rw [resizeTo_length]; exact Nat.le_refl _), List.append_nil]
  refine ⟨?_, main⟩
  intro out h
  by_cases hd : nests C (limit + 1) id m
  · by_cases hmax : maxMessageSize ≤ (wire C limit id m).length
    · rw [writeBinpb, write_too_large C hN true true buf hd hmax hl] at h; cases h
    · have hmax : (wire C limit id m).length < maxMessageSize := by omega
      by_cases hu : utf8Ok C isDefault (limit + 1) id m
      · rw [main hd hu hmax] at h
        injection h with h
        injection h with _ h
        exact ⟨h.symm, hd, hu, hmax⟩
      · have hb := resize_grow (n := (wire C limit id m).length) buf hmax
        obtain ⟨b', e, _⟩ := (write_ok C hN true true buf hd hmax hb (by rw [resizeTo_length]; exact Nat.le_refl _)).2 hu
        rw [writeBinpb, e] at h; cases h
  · rw [writeBinpb, write_too_deep C true true buf hd] at h; cases h

/-- C11, for encodings below 2^64 bytes: from 2^31-1 bytes on the write is refused with
`value_too_large` and the destination (growable or fixed) is untouched; below, that error
is never returned. Missing from the full claim: encodings of 2^64 bytes and more, where it
fails (`C11_size_wraps`). -/
theorem C11_oversized_refused_partial (C : Cfg) (hN : numbersOk C) (limit id : Nat) (m : Msg) (growable : Bool)
    (buf : List Byte) (hd : nests C (limit + 1) id m) (hl : (wire C limit id m).length < 2 ^ 64) :
    (2 ^ 31 - 1 ≤ (wire C limit id m).length →
      writeBinpb C limit growable id m buf = .ok (some .valueTooLarge, buf)) ∧
    ((wire C limit id m).length < 2 ^ 31 - 1 →
      ∀ out, writeBinpb C limit growable id m buf ≠ .ok (some .valueTooLarge, out)) := by
  refine ⟨fun h => write_too_large C hN true growable buf hd h hl, ?_⟩
  intro hmax out h
  cases growable with
  | true =>
    have hb := resize_grow (n := (wire C limit id m).length) buf hmax
    obtain ⟨k1, k2⟩ := write_ok C hN true true buf hd hmax hb (by rw [resizeTo_length]; exact Nat.le_refl _)
    by_cases hu : utf8Ok C isDefault (limit + 1) id m
    · rw [writeBinpb, k1 hu] at h; cases h
    · obtain ⟨b', e, _⟩ := k2 hu; rw [writeBinpb, e] at h; cases h
  | false =>
    have hb := resize_fixed (n := (wire C limit id m).length) buf hmax
    by_cases hr : (wire C limit id m).length > buf.length
    · rw [if_pos hr] at hb
      rw [writeBinpb, write_no_room C hN true false buf hd hmax hb] at h; cases h
    · rw [if_neg hr] at hb
      obtain ⟨k1, k2⟩ := write_ok C hN true false buf hd hmax hb (Nat.le_of_not_lt hr)
      by_cases hu : utf8Ok C isDefault (limit + 1) id m
      · rw [writeBinpb, k1 hu] at h; cases h
      · obtain ⟨b', e, _⟩ := k2 hu; rw [writeBinpb, e] at h; cases h

/-- A type with one `repeated bytes` field. -/
def bytesCfg : Cfg where
  utf8 _ := true
  schema _ := { slots := [.field 1 (.scalar (.str false)) (.repeated false)], unk := .none }

theorem bytes_nests (d : Nat) (vs : List Val) : nests bytesCfg (d + 1) 0 ⟨[vs.map (fun v => (0, v))], []⟩ := by
  rw [nests]
  intro p hp e _ k hk
  simp [bytesCfg] at hp
  subst hp
  simp [kindOf] at hk
  subst hk
  trivial

theorem bytes_wire (d : Nat) (vs : List Val) : wire bytesCfg d 0 ⟨[vs.map (fun v => (0, v))], []⟩ =
    vs.flatMap (fun v => tag 1 2 ++ (leb v.str.length ++ v.str)) := by
  simp [wire, encode, bytesCfg, member, List.flatMap_map, record, wireTypeOf, scalar]

/-- Both halves of C11 are about existing messages, here a `bytes` value of 2^31 bytes. -/
example : ∃ m, nests bytesCfg 101 0 m ∧ 2 ^ 31 - 1 ≤ (wire bytesCfg 100 0 m).length ∧
    (wire bytesCfg 100 0 m).length < 2 ^ 64 := by
  have key : ∀ b : Val, b.str.length = 2 ^ 31 → 2 ^ 31 - 1 ≤ (wire bytesCfg 100 0 ⟨[[b].map (fun v => (0, v))], []⟩).length ∧
    (wire bytesCfg 100 0 ⟨[[b].map (fun v => (0, v))], []⟩).length < 2 ^ 64 := by
    intro b hb
    have h1 : (leb (2 ^ 31)).length = 5 := by decide +kernel
    have h2 : (tag 1 2).length = 1 := by decide +kernel
    rw [bytes_wire]
    simp only [List.flatMap_cons, List.flatMap_nil, List.length_append, hb, h1, h2, List.length_nil]
    omega
  exact ⟨_, bytes_nests 100 [.bytes (List.replicate (2 ^ 31) 0)], key _ List.length_replicate⟩

/-- Two `bytes` values of 2^63-10 bytes encode to exactly 2^64 bytes, and the size pass
computes 0. -/
theorem wrap_aux (b : Val) (hb : b.str.length = 2 ^ 63 - 10) :
    (wire bytesCfg 100 0 ⟨[[b, b].map (fun v => (0, v))], []⟩).length = 2 ^ 64 ∧
    writeBinpb bytesCfg 100 true 0 ⟨[[b, b].map (fun v => (0, v))], []⟩ [] = .ub := by
  constructor
  · have h1 : (leb (2 ^ 63 - 10)).length = 9 := by decide +kernel
    have h2 : (tag 1 2).length = 1 := by decide +kernel
    rw [bytes_wire]
    simp only [List.flatMap_cons, List.flatMap_nil, List.length_append, hb, h1, h2, List.length_nil]
  · have hi : msgItems (bytesCfg.schema 0) ⟨[[b, b].map (fun v => (0, v))], []⟩ =
      [.one 1 (.scalar (.str false)) b, .one 1 (.scalar (.str false)) b] := rfl
    have hc : countMsg bytesCfg (100 + 1) 0 ⟨[[b, b].map (fun v => (0, v))], []⟩ = (0, false) := by
      rw [countMsg, hi]; rfl
    have hs : sizeMsg bytesCfg (100 + 1) 0 ⟨[[b, b].map (fun v => (0, v))], []⟩ ⟨[], 0⟩ = .ok (0, ⟨[], 0⟩) := by
      have e1 : u64 (u64 (u64 (tagSize 1 + lenSize (2 ^ 63 - 10)) +
        u64 (u64 (tagSize 1 + lenSize (2 ^ 63 - 10)) + 0)) + sum64 []) = 0 := by decide +kernel
      rw [← hb] at e1
      rw [sizeMsg, hi]
      simp only [sizeItems, sizeItem, scalarSize, bind, Res.bind, List.map_nil]
      rw [e1]
    have hw : serMsg bytesCfg [] (100 + 1) 0 ⟨[[b, b].map (fun v => (0, v))], []⟩ 0 =
        ([tagPiece 1 wtLen, .varint b.str.length, .raw b.str, tagPiece 1 wtLen, .varint b.str.length, .raw b.str], .ok 0) := by
      rw [serMsg, hi]; rfl
    rw [writeBinpb, serializeBuffer, hc]
    simp only [Bool.false_eq_true, if_false, writeWithCache, List.replicate_zero]
    rw [hs]
    simp only [bind, Res.bind]
    rw [if_neg (by decide), resize_grow [] (by decide)]
    simp only
    rw [hw]
    have hp : ∀ ps, pokePieces (tagPiece 1 wtLen :: ps) (resizeTo 0 []) 0 = none := by
      intro ps
      rw [pokePieces, poke, if_neg (by decide +kernel)]
    simp only [hp]

/-- C11 does not hold for encodings of 2^64 bytes: the size, a `uint64_t`, wraps to 0, and
the writer runs past the (empty) buffer. The message is two `bytes` values of 2^63-10
bytes; in a non-owning message both can be views of the same memory. -/
theorem C11_size_wraps : ∃ m, nests bytesCfg 101 0 m ∧ (wire bytesCfg 100 0 m).length = 2 ^ 64 ∧
    writeBinpb bytesCfg 100 true 0 m [] = .ub :=
  ⟨_, bytes_nests 100 [.bytes (List.replicate (2 ^ 63 - 10) 0), .bytes (List.replicate (2 ^ 63 - 10) 0)],
    wrap_aux _ List.length_replicate⟩

/-- C12. A buffer that cannot grow: too small, it is refused with `not_enough_memory` and
not touched; large enough, the encoding replaces the leading bytes and the rest is as
before (also after a failed write, which never touches the rest). -/
theorem C12_fixed_buffer (C : Cfg) (hN : numbersOk C) (limit id : Nat) (m : Msg) (buf : List Byte)
    (hd : nests C (limit + 1) id m) (hl : (wire C limit id m).length < 2 ^ 31 - 1) :
    (buf.length < (wire C limit id m).length →
      writeBinpb C limit false id m buf = .ok (some .notEnoughMemory, buf)) ∧
    ((wire C limit id m).length ≤ buf.length → utf8Ok C isDefault (limit + 1) id m →
      writeBinpb C limit false id m buf =
        .ok (none, wire C limit id m ++ buf.drop (wire C limit id m).length)) ∧
    ((wire C limit id m).length ≤ buf.length → ∃ st out,
      writeBinpb C limit false id m buf = .ok (st, out) ∧ out.length = buf.length ∧
        out.drop (wire C limit id m).length = buf.drop (wire C limit id m).length) := by
  have hb := resize_fixed (n := (wire C limit id m).length) buf hl
  refine ⟨?_, ?_, ?_⟩
  · intro h
    rw [if_pos h] at hb
    exact write_no_room C hN true false buf hd hl hb
  · intro h hu
    rw [if_neg (by omega)] at hb
    exact (write_ok C hN true false buf hd hl hb h).1 hu
  · intro h
    rw [if_neg (by omega)] at hb
    obtain ⟨k1, k2⟩ := write_ok C hN true false buf hd hl hb h
    by_cases hu : utf8Ok C isDefault (limit + 1) id m
    · refine ⟨_, _, k1 hu, by rw [List.length_append, List.length_drop]; exact Nat.add_sub_cancel' h, ?_⟩
      rw [List.drop_left]
    · obtain ⟨b', e1, e2⟩ := k2 hu
      exact ⟨_, b', e1, e2⟩

example : writeBinpb demoCfg 2 false 0 demoMsg (List.replicate 38 7) =
      .ok (some .notEnoughMemory, List.replicate 38 7) ∧
    writeBinpb demoCfg 2 false 0 demoMsg (List.replicate 41 7) =
      .ok (none, wire demoCfg 2 0 demoMsg ++ [7, 7]) := by decide +kernel

/-- C13. Nesting beyond the limit is refused with `bad_message`, leaving the buffer alone;
nesting within the limit never is: for a message whose strings are valid `bad_message`
means exactly "too deep". (That the depth counter is restored is C28.) -/
theorem C13_write_recursion_limit (C : Cfg) (hN : numbersOk C) (limit id : Nat) (m : Msg) (growable : Bool)
    (buf : List Byte) (hl : (wire C limit id m).length < 2 ^ 64) :
    (¬ nests C (limit + 1) id m → writeBinpb C limit growable id m buf = .ok (some .badMessage, buf)) ∧
    (nests C (limit + 1) id m → utf8Ok C isDefault (limit + 1) id m →
      ∀ out, writeBinpb C limit growable id m buf ≠ .ok (some .badMessage, out)) := by
  refine ⟨fun h => write_too_deep C true growable buf h, ?_⟩
  intro hd hu out h
  by_cases hmax : maxMessageSize ≤ (wire C limit id m).length
  · rw [writeBinpb, write_too_large C hN true growable buf hd hmax hl] at h; cases h
  · have hmax : (wire C limit id m).length < maxMessageSize := by omega
    cases growable with
    | true =>
      have hb := resize_grow (n := (wire C limit id m).length) buf hmax
      rw [writeBinpb, (write_ok C hN true true buf hd hmax hb (by rw [resizeTo_length]; exact Nat.le_refl _)).1 hu] at h; cases h
    | false =>
      have hb := resize_fixed (n := (wire C limit id m).length) buf hmax
      by_cases hr : (wire C limit id m).length > buf.length
      · rw [if_pos hr] at hb
        rw [writeBinpb, write_no_room C hN true false buf hd hmax hb] at h; cases h
      · rw [if_neg hr] at hb
        rw [writeBinpb, (write_ok C hN true false buf hd hmax hb (Nat.le_of_not_lt hr)).1 hu] at h; cases h

/-- The limit is met exactly: the demo message has depth 2, so limit 1 suffices and limit 0
does not. -/
example : (nests demoCfg 2 0 demoMsg) ∧ ¬ nests demoCfg 1 0 demoMsg ∧
    writeBinpb demoCfg 0 true 0 demoMsg [9] = .ok (some .badMessage, [9]) :=
  ⟨(count_flag _ _ _ _).1 (by decide), fun h => by have := (count_flag _ _ _ _).2 h; revert this; decide,
    by decide⟩

/-- C15 fails: appending overwrites the beginning of the buffer and leaves zero bytes at
the end. -/
theorem C15_append_overwrites :
    ∃ out, appendBinpb demoCfg 2 ⟨[[(0, .num 0x3f800000)]], []⟩ [1, 2, 3] = .ok (none, out) ∧
      ¬ [1, 2, 3] <+: out ∧ out = [13, 0, 0, 128, 63, 0, 0, 0] :=
  ⟨[13, 0, 0, 128, 63, 0, 0, 0], by decide +kernel, by decide, rfl⟩

/-- C15, what does hold: the buffer grows by the length of the encoding, and the encoding
is written at its start. So the claim holds only when the buffer was empty (last part).
Missing: preservation of a non-empty prefix, which is false (`C15_append_overwrites`). -/
theorem C15_append_partial (C : Cfg) (hN : numbersOk C) (id : Nat) (m : Msg) (buf : List Byte)
    (hd : nests C 101 id m) (hu : utf8Ok C isDefault 101 id m) (hl : (wire C 100 id m).length < 2 ^ 31 - 1)
    (hbuf : buf.length < 2 ^ 63) :
    ∃ out, appendBinpb C id m buf = .ok (none, out) ∧ out.length = buf.length + (wire C 100 id m).length ∧
      out.take (wire C 100 id m).length = wire C 100 id m ∧
      (buf = [] → out = buf ++ wire C 100 id m) := by
  have hb := resize_append (n := (wire C 100 id m).length) buf (by omega)
  have := (write_ok C hN false true buf hd hl hb (by rw [resizeTo_length]; exact Nat.le_add_left _ _)).1 hu
  refine ⟨_, this, ?_, ?_, ?_⟩
  · rw [List.length_append, List.length_drop, resizeTo_length]
    exact Nat.add_sub_cancel' (Nat.le_add_left _ _)
  · exact List.take_left
  · rintro rfl
    rw [List.nil_append, List.drop_eq_nil_of_le (by rw [resizeTo_length]; simp), List.append_nil]

example : nests demoCfg 101 0 demoMsg ∧ appendBinpb demoCfg 0 demoMsg [] = .ok (none, wire demoCfg 100 0 demoMsg) :=
  ⟨(count_flag _ _ _ _).1 (by decide), by decide +kernel⟩

end HppProto.Props
