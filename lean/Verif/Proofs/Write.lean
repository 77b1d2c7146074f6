import Verif.Proofs.Serialize
/-! The complete behaviour of `write_binpb` on a buffer. -/
namespace HppProto
variable (C : Cfg)

theorem cache_init (n : Nat) (l : List Nat) (h : n = l.length) :
    (⟨List.replicate n 0, 0⟩ : CacheSt) = ⟨[] ++ List.replicate n 0 ++ [], ([] : List Nat).length⟩ := by simp

theorem size_run (hN : Spec.numbersOk C) {d id : Nat} {m : Msg} (h : Spec.nests C d id m)
    (hl : (enc C d id m).length < 2 ^ 64) :
    sizeMsg C d id m ⟨List.replicate (countMsg C d id m).1 0, 0⟩ =
      .ok ((enc C d id m).length, ⟨cacheMsg C d id m, (countMsg C d id m).1⟩) := by
  have hc := count_nests C d id m h
  have := size_ok C hN d id m h hl [] (List.replicate (cacheMsg C d id m).length 0) [] (by simp)
  rw [hc]
  simpa using this

theorem ser_run (hN : Spec.numbersOk C) {d id : Nat} {m : Msg} (h : Spec.nests C d id m)
    (hl : (enc C d id m).length < maxMessageSize) :
    (Spec.utf8Ok C isDefault d id m → ∃ ps, serMsg C (cacheMsg C d id m) d id m 0 =
        (ps, .ok (countMsg C d id m).1) ∧ piecesBytes ps = enc C d id m) ∧
    (¬ Spec.utf8Ok C isDefault d id m → ∃ ps, serMsg C (cacheMsg C d id m) d id m 0 = (ps, .fail) ∧
        piecesBytes ps <+: enc C d id m) := by
  have := ser_ok C hN (cacheMsg C d id m) d id m h hl [] [] (by simp)
  rw [count_nests C d id m h]
  simpa using this

/-- The buffer after a successful resize: what it holds, as a function of the mode. -/
theorem write_ok (hN : Spec.numbersOk C) {limit id : Nat} {m : Msg} (ow g : Bool) (buf : List Byte)
    (h : Spec.nests C (limit + 1) id m) (hl : (enc C (limit + 1) id m).length < maxMessageSize) {b : List Byte}
    (hb : resizeBuffer ow g buf (enc C (limit + 1) id m).length = .ok b)
    (hbl : (enc C (limit + 1) id m).length ≤ b.length) :
    (Spec.utf8Ok C isDefault (limit + 1) id m → serializeBuffer C limit ow g id m buf =
      .ok (none, enc C (limit + 1) id m ++ b.drop (enc C (limit + 1) id m).length)) ∧
    (¬ Spec.utf8Ok C isDefault (limit + 1) id m → ∃ b', serializeBuffer C limit ow g id m buf =
      .ok (some .badMessage, b') ∧ b'.length = b.length ∧
        b'.drop (enc C (limit + 1) id m).length = b.drop (enc C (limit + 1) id m).length) := by
  have hmax : maxMessageSize < 2 ^ 64 := by decide
  have hf := (count_flag C (limit + 1) id m).2 h
  have hs := size_run C hN h (by omega)
  obtain ⟨r1, r2⟩ := ser_run C hN h hl
  have unfold1 : serializeBuffer C limit ow g id m buf =
      match serMsg C (cacheMsg C (limit + 1) id m) (limit + 1) id m 0 with
      | (_, .ub) => .ub
      | (ps, .ok _) =>
        match pokePieces ps b 0 with
        | some buf => .ok (none, buf)
        | none => .ub
      | (ps, .fail) =>
        match pokePieces ps b 0 with
        | some buf => .ok (some .badMessage, buf)
        | none => .ub := by
    rw [serializeBuffer]
    simp only [hf, Bool.false_eq_true, if_false, writeWithCache]
    rw [hs]
    show Res.bind (Res.ok _) _ = _
    simp only [Res.bind]
    rw [if_neg (by omega), hb]
    rfl
  have hpoke : ∀ ps, piecesBytes ps <+: enc C (limit + 1) id m →
      pokePieces ps b 0 = some (piecesBytes ps ++ b.drop (piecesBytes ps).length) := by
    intro ps hp
    have := pokePieces_ok ps b [] (b.take (piecesBytes ps).length) (b.drop (piecesBytes ps).length)
      (by simp) (by rw [List.length_take]; have := hp.length_le; omega)
    simpa using this
  rw [unfold1]
  constructor
  · intro hu
    obtain ⟨ps, e1, e2⟩ := r1 hu
    rw [e1]
    have := hpoke ps (e2 ▸ List.prefix_refl _)
    simp only [this]
    rw [e2]
  · intro hu
    obtain ⟨ps, e1, e2⟩ := r2 hu
    rw [e1]
    simp only [hpoke ps e2]
    have hle := e2.length_le
    refine ⟨_, rfl, by simp; omega, ?_⟩
    rw [List.drop_append, List.drop_eq_nil_of_le hle, List.nil_append, List.drop_drop]
    congr 1; omega

theorem write_too_deep {limit id : Nat} {m : Msg} (ow g : Bool) (buf : List Byte)
    (h : ¬ Spec.nests C (limit + 1) id m) :
    serializeBuffer C limit ow g id m buf = .ok (some .badMessage, buf) := by
  have hf : (countMsg C (limit + 1) id m).2 = true := by
    cases hh : (countMsg C (limit + 1) id m).2
    · exact absurd ((count_flag C _ _ _).1 hh) h
    · rfl
  rw [serializeBuffer]; simp [hf]

theorem write_too_large (hN : Spec.numbersOk C) {limit id : Nat} {m : Msg} (ow g : Bool) (buf : List Byte)
    (h : Spec.nests C (limit + 1) id m) (hl : maxMessageSize ≤ (enc C (limit + 1) id m).length)
    (hl2 : (enc C (limit + 1) id m).length < 2 ^ 64) :
    serializeBuffer C limit ow g id m buf = .ok (some .valueTooLarge, buf) := by
  have hf := (count_flag C (limit + 1) id m).2 h
  have hs := size_run C hN h (by omega)
  rw [serializeBuffer]
  simp only [hf, Bool.false_eq_true, if_false, writeWithCache]
  rw [hs]
  show Res.bind (Res.ok _) _ = _
  simp only [Res.bind]
  rw [if_pos (by omega)]

theorem write_no_room (hN : Spec.numbersOk C) {limit id : Nat} {m : Msg} (ow g : Bool) (buf : List Byte) {e : Err}
    (h : Spec.nests C (limit + 1) id m) (hl : (enc C (limit + 1) id m).length < maxMessageSize)
    (hb : resizeBuffer ow g buf (enc C (limit + 1) id m).length = .err e) :
    serializeBuffer C limit ow g id m buf = .ok (some e, buf) := by
  have hmax : maxMessageSize < 2 ^ 64 := by decide
  have hf := (count_flag C (limit + 1) id m).2 h
  have hs := size_run C hN h (by omega)
  rw [serializeBuffer]
  simp only [hf, Bool.false_eq_true, if_false, writeWithCache]
  rw [hs]
  show Res.bind (Res.ok _) _ = _
  simp only [Res.bind]
  rw [if_neg (by omega), hb]

theorem resize_grow {n : Nat} (buf : List Byte) (h : n < maxMessageSize) :
    resizeBuffer true true buf n = .ok (resizeTo n buf) := by
  have hmax : maxMessageSize < 2 ^ 64 := by decide
  rw [resizeBuffer]
  simp only [if_true]
  rw [if_neg (by omega)]; simp

theorem resize_fixed {n : Nat} (buf : List Byte) (h : n < maxMessageSize) :
    resizeBuffer true false buf n = if n > buf.length then .err .notEnoughMemory else .ok buf := by
  have hmax : maxMessageSize < 2 ^ 64 := by decide
  rw [resizeBuffer]
  simp only [if_true]
  rw [if_neg (by omega)]; simp

theorem resize_append {n : Nat} (buf : List Byte) (h : n + buf.length < 2 ^ 64) :
    resizeBuffer false true buf n = .ok (resizeTo (buf.length + n) buf) := by
  rw [resizeBuffer]
  simp only [Bool.false_eq_true, if_false, if_true]
  rw [if_neg (by omega)]

end HppProto
