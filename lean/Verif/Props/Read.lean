import Verif.Proofs.ReadInv
import Verif.Proofs.ReadMono
import Verif.Props.Write
/-!
# Claims C18–C20, C22, C25, C26, C37, C51: reading messages

Vocabulary. `readBinpb C limit id old buf` is `read_binpb` of the bytes `buf` into an object
of message type `id` that held `old`; `parseOnto` is the same without the initial reset.
`Spec.Rec` (`Verif/Spec/Records.lean`) is a wire record with its bytes; `wfAll rs` says that
the records are well formed (a group ends with an end tag of its own number), `rawAll rs`
are their bytes. `Spec.fieldKind D n` is the kind of field `n` in type `D`, `fits` the
nesting of an input, `everyScalar` a property of all scalars in a message
(`Verif/Spec/Fields.lean`).
-/
namespace HppProto.Props
open HppProto HppProto.Spec

theorem noClosed_iff (C : Cfg) : noClosedOneof C ↔ ¬ ClosedInOneof C := by
  constructor
  · rintro h ⟨id, alts, a, h1, h2, h3⟩
    have := h id alts h1 a h2
    cases hk : a.2 with
    | scalar sc =>
      rw [hk] at h3 this
      cases sc with
      | enum c => cases c with
        | none => simp [Kind.closed] at h3
        | some vs => exact this vs rfl
      | _ => simp [Kind.closed] at h3
    | _ => rw [hk] at h3; simp [Kind.closed] at h3
  · intro h id alts h1 a h2 vs h3
    exact h ⟨id, alts, a, h1, h2, by rw [h3]; rfl⟩

theorem demo_noClosed : noClosedOneof demoCfg := by
  intro id alts h a ha vs
  match id with
  | 0 => simp [demoCfg] at h; subst h; simp at ha; rcases ha with rfl | rfl <;> simp
  | 1 => simp [demoCfg] at h
  | 2 => simp [demoCfg] at h
  | _ + 3 => simp [demoCfg] at h

/-! ## C18 -/

/-- C18. Reading ends, without undefined behaviour, on every byte string: with a message, in
which case the whole input was taken apart into well-formed records, or with an error, or
by an exception, which is possible only if a oneof has a closed-enum member. Missing from
the full claim: the absence of that exception, which is false (`C18_throws`). -/
theorem C18_terminates_partial (C : Cfg) (limit id : Nat) (old : Msg) (buf : List Byte) :
    (∃ m, readBinpb C limit id old buf = .ok m ∧ ∃ rs, wfAll rs ∧ rawAll rs = buf) ∨
    (∃ e, readBinpb C limit id old buf = .err e) ∨
    (readBinpb C limit id old buf = .throw ∧ ¬ noClosedOneof C) := by
  have hf := parseOnto_fine C limit id (C.schema id).default buf
  rw [readBinpb_eq]
  cases h : parseOnto C limit id (C.schema id).default buf with
  | ok m =>
    obtain ⟨rs, w, e, -⟩ := (parseOnto_iff _ _ _ _ _ _).1 h
    exact .inl ⟨m, rfl, rs, w, e⟩
  | err e => exact .inr (.inl ⟨e, rfl⟩)
  | ub => exact absurd h hf.1
  | stuck => exact absurd h hf.2.1
  | throw => exact .inr (.inr ⟨rfl, fun hn => (noClosed_iff C).1 hn (hf.2.2 h)⟩)

/-- A oneof with a closed-enum member: `enum E { A = 0; B = 1; } oneof o { E e = 1; }`,
proto2. -/
def oneofEnumCfg : Cfg where
  utf8 _ := true
  schema _ := { slots := [.oneof [(1, .scalar (.enum (some [0, 1])))]], unk := .bytes }

/-- C18 fails where a oneof has a closed-enum member: reading a valid record of it into a
message whose oneof is not already set to that member throws `std::bad_variant_access`. -/
theorem C18_throws : ∃ m, readBinpb oneofEnumCfg 100 0 m [0x08, 0x01] = .throw :=
  ⟨⟨[], []⟩, by with_unfolding_all rfl⟩

/-- Reading the encoding of the demo message succeeds; cutting it short gives an error. -/
example : (match readBinpb demoCfg 2 0 ⟨[], []⟩ (wire demoCfg 2 0 demoMsg) with | .ok _ => true | _ => false) = true ∧
    readBinpb demoCfg 2 0 ⟨[], []⟩ ((wire demoCfg 2 0 demoMsg).take 38) = .err .badMessage :=
  ⟨by decide +kernel, by with_unfolding_all rfl⟩

/-! ## C37 -/

/-- C37. The result does not depend on what the destination held. -/
theorem C37_read_replaces (C : Cfg) (limit id : Nat) (old old' : Msg) (buf : List Byte) :
    readBinpb C limit id old buf = readBinpb C limit id old' buf := rfl

/-- Without the reset it would: reading `{c: [1]}` onto the demo message appends. -/
example : ∃ m1 m2, readBinpb demoCfg 2 0 demoMsg [0x1a, 0x01, 0x02] = .ok m1 ∧
    parseOnto demoCfg 2 0 demoMsg [0x1a, 0x01, 0x02] = .ok m2 ∧ (m1.get 2).length = 1 ∧ (m2.get 2).length = 3 := by
  refine ⟨⟨[[(0, .num 0)], [], [(0, .num 1)], [], [], []], []⟩, _, by with_unfolding_all rfl, by with_unfolding_all rfl, rfl, rfl⟩

/-! ## C19 -/

/-- C19. If `a` and `b` are accepted, so is their concatenation, with the result of reading
`b` on top of what `a` gave; and conversely. Conditions: no closed-enum oneof member
(reading one may throw, C18), the first tag of `b` is minimal or unknown fields are not
kept, and the type is not a map entry. Missing: inputs `b` that start with an overlong tag,
for which it is false (`C19_overlong_tag`). -/
theorem C19_concat_partial (C : Cfg) (hC : noClosedOneof C) (limit id : Nat) (old : Msg) (a b : List Byte) (ma mb : Msg)
    (hE : (C.schema id).isEntry = false)
    (hmin : (C.schema id).unk = .none ∨ ∀ r rs, wfAll (r :: rs) → rawAll (r :: rs) = b → minimalTag r)
    (ha : readBinpb C limit id old a = .ok ma) (hb : readBinpb C limit id old b = .ok mb) :
    ∃ m, readBinpb C limit id old (a ++ b) = .ok m ∧ parseOnto C limit id ma b = .ok m := by
  rw [readBinpb_eq] at ha hb ⊢
  obtain ⟨ra, wa, ea, -, fa⟩ := (parseOnto_iff _ _ _ _ _ _).1 ha
  obtain ⟨m2, h2⟩ := (sem_any C ((noClosed_iff C).1 hC) (limit + 1)).1 _ _ _ _ ((parseOnto_iff _ _ _ _ _ _).1 hb) ma
  refine ⟨m2, ?_, (parseOnto_iff _ _ _ _ _ _).2 h2⟩
  obtain ⟨rb, wb, eb, -, fb⟩ := h2
  refine (parseOnto_iff _ _ _ _ _ _).2 ⟨ra ++ rb, wfAll_append.2 ⟨wa, wb⟩, by rw [rawAll_append, ea, eb], ?_,
    fold_append.2 ⟨ma, fa, ?_⟩⟩
  · intro h; rw [hE] at h; cases h
  · cases rb with
    | nil => exact fb
    | cons r rs =>
      obtain ⟨m1, s1, f1⟩ := fb
      refine ⟨m1, ?_, f1⟩
      rcases hmin with hu | hmin
      · have hl : ∀ rs last, last = none → lastOf (C.schema id) last rs = none := by
          intro rs
          induction rs with
          | nil => intro _ h; exact h
          | cons r rs ih => intro _ _; exact ih _ (by simp [nextRun, hu])
        rw [hl _ _ rfl]
        exact s1
      · have := hmin r rs wb eb
        obtain ⟨s0, s1⟩ := s1
        refine ⟨s0, ?_⟩
        split at s1
        · exact s1
        · rw [captured_minimal this] at s1 ⊢
          exact s1

/-- Both halves of the encoding of the demo message, read one after the other. -/
example : noClosedOneof demoCfg ∧ (demoCfg.schema 0).isEntry = false ∧
    (match readBinpb demoCfg 2 0 ⟨[], []⟩ (wire demoCfg 2 0 demoMsg) with | .ok _ => true | _ => false) = true ∧
    (match readBinpb demoCfg 2 0 ⟨[], []⟩ [0x0a + 0x10, 0x01, 0x02] with | .ok _ => true | _ => false) = true :=
  ⟨demo_noClosed, rfl, by decide +kernel, by decide +kernel⟩

/-- C19 does not hold for an unknown field with an overlong tag: `a` and `b` hold the same
unknown field 15, `b` with its tag in two bytes. Read together the record is kept whole;
read on top of `a`, it loses the first byte of its tag. -/
theorem C19_overlong_tag : ∃ ma m m',
    readBinpb demoCfg 2 0 ⟨[], []⟩ [0x78, 0x05] = .ok ma ∧
    readBinpb demoCfg 2 0 ⟨[], []⟩ ([0x78, 0x05] ++ [0xf8, 0x00, 0x05]) = .ok m ∧
    parseOnto demoCfg 2 0 ma [0xf8, 0x00, 0x05] = .ok m' ∧
    kept m = [0x78, 0x05, 0xf8, 0x00, 0x05] ∧ kept m' = [0x78, 0x05, 0x00, 0x05] := by
  refine ⟨_, _, _, by with_unfolding_all rfl, by with_unfolding_all rfl, by with_unfolding_all rfl, by decide, by decide⟩

end HppProto.Props
