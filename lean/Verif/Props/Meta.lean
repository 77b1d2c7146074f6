import Verif.Proofs.MetaOk
import Verif.Props.Pool
import Verif.Props.Merge
import Verif.Props.Varint

/-!
# C96 to C99: the classes that are generated for a message

`initPool order fs = .ok p`: `p` is the pool of the files `fs` (C71-C75).
`classes S p fresh utf8 w`: what the reader (`w = false`) or the writer (`w = true`) makes of the
classes generated for `p` with the options and traits `S`; `fresh id` is a default-constructed object
of class `id`.  The rules are in `Verif/Spec/Meta.lean`.
-/

namespace HppProto.Props
open Spec Meta

variable {order : FileMap → FileMap} {fs : List FileProto} {p : Pool}

/-- Fields and their descriptions. -/
theorem view_field {d : MsgDesc} {L : List FieldDesc} (V : View p d L) {f : FieldProto} (hf : f ∈ d.proto.fields) :
    ∃ x ∈ L, x.proto = f := by
  rw [← V.protos] at hf
  exact List.mem_map.1 hf

theorem schema_at (S : Setup) (p : Pool) (fresh : Nat → Msg) (utf8 : List Byte → Bool) (w : Bool) {i : Nat} {d : MsgDesc}
    (hd : p.messages[i]? = some d) : (classes S p fresh utf8 w).schema i = classOf S p fresh w d := by
  rcases schema_cases S p fresh utf8 w i with ⟨h, _⟩ | ⟨d', h, e⟩
  · rw [hd] at h; cases h
  · rw [hd] at h; cases h; exact e

theorem pool_names (ho : ∀ m, (order m).Perm m) (h : initPool order fs = .ok p) :
    (p.messages.map (·.fullName)).Nodup := by
  have hs := initPool_sat order ho fs
  rw [h] at hs
  obtain ⟨⟨_, _, _, _, _, st⟩, hw⟩ := hs
  have hp := (st.mirrors.all_messages).map (·.name)
  rw [List.map_map] at hp
  exact hp.nodup_iff.2 hw.message_names

/-! ## C96: fields, kinds, presence, oneofs and order -/

/-- C96, in part.  The class of a message has exactly the fields of the message, and each has the
kind of value that the encoding rules ask for.  Missing: maps, and messages in map entries, where
the feature `DELIMITED` is on (`C96_delimited_map`), and required fields of closed enums in editions
(`C96_required_enum`); for both the claim is false. -/
theorem C96_fields_partial (S : Setup) (hS : S.explicit = [b!"."]) (ho : ∀ m, (order m).Perm m)
    (h : initPool order fs = .ok p) (hA : Accepted p) (fresh : Nat → Msg) (utf8 : List Byte → Bool) (w : Bool)
    {i : Nat} {d : MsgDesc} (hd : p.messages[i]? = some d) (n : Nat) :
    (∀ f ∈ d.proto.fields, f.number = n →
      ((under d.features f.features).messageEncoding = 2 → ¬ isMap p f ∧ (f.type = 11 → d.proto.mapEntry = false)) →
      ¬ (f.type = 14 ∧ f.label = 1 ∧ (under d.features f.features).presence = 3) →
      ∃ k, fieldKind ((classes S p fresh utf8 w).schema i) n = some k ∧ KindRule p d f (under d.features f.features) k) ∧
    ((∀ f ∈ d.proto.fields, f.number ≠ n) → fieldKind ((classes S p fresh utf8 w).schema i) n = none) := by
  have V := view_of order ho h hd
  have hdm := List.mem_of_getElem? hd
  have hcn := class_number (S := S) (fresh := fresh) (w := w) V hA hdm
  unfold fieldKind
  rw [schema_at S p fresh utf8 w hd]
  constructor
  · intro f hf hn hg hc
    obtain ⟨x, hx, rfl⟩ := view_field V hf
    refine ⟨_, (hcn n _).2 ⟨x, hx, by omega, rfl⟩, ?_⟩
    have hfe := V.features x hx
    refine kind_rule V hx ?_ ?_
    · intro h11 h2
      rw [hfe] at h2
      obtain ⟨g1, g2⟩ := hg h2
      refine ⟨?_, g2 h11⟩
      obtain ⟨j, m, _, hm, hn, hb⟩ := (V.resolved x hx).message (.inr h11)
      cases hme : x.bits.mapEntry with
      | false => rfl
      | true => exact absurd ⟨h11, m, List.mem_of_getElem? hm, hn, by rw [← hb]; exact hme⟩ g1
    · by_cases h14 : x.proto.type = 14
      · refine emitClosed_default hS V hA hdm hx ?_
        rintro ⟨h1, h2⟩
        rw [hfe] at h2
        exact hc ⟨h14, h1, h2⟩
      · exact emitClosed_none h14
  · intro hn
    cases hk : List.findSome? (slotKind n) (classOf S p fresh w d).slots with
    | none => rfl
    | some k =>
      obtain ⟨x, hx, h1, _⟩ := (hcn n k).1 hk
      have := (V.ok hx).number
      exact absurd (by omega) (hn _ (V.proto_mem x hx))

/-- C96, in part.  A field outside oneofs is held as its label and presence ask for: maps and lists
(packed or not), optional and required fields, and fields without presence, which start out as zero
and are omitted when they are zero.  Missing: `packed = false` where the feature says packed
(`C96_unpacked`), for which the claim is false. -/
theorem C96_presence_partial (S : Setup) (hS : S.explicit = [b!"."]) (ho : ∀ m, (order m).Perm m)
    (h : initPool order fs = .ok p) (hA : Accepted p) (hD : DefaultsGiven S p) (fresh : Nat → Msg) (utf8 : List Byte → Bool)
    (w : Bool) {i : Nat} {d : MsgDesc} (hd : p.messages[i]? = some d) (he : d.proto.mapEntry = false)
    (f : FieldProto) (hf : f ∈ d.proto.fields) (h1 : f.oneofIndex = none)
    (hx : ¬ (f.packed = some false ∧ (under d.features f.features).repeatedEncoding = 1)) :
    ∃ n k card, SlotD.field n k card ∈ ((classes S p fresh utf8 w).schema i).slots ∧ (n.toNat : Int) = f.number ∧
      CardRule p f (under d.features f.features) card := by
  have V := view_of order ho h hd
  have hdm := List.mem_of_getElem? hd
  obtain ⟨x, hxm, rfl⟩ := view_field V hf
  rw [← V.features x hxm] at hx
  obtain ⟨card, e, hc⟩ := card_rule (fresh := fresh) (w := w) hS V hA hD (pool_names ho h) hdm he hxm h1 hx
  rw [schema_at S p fresh utf8 w hd, class_slots he]
  refine ⟨BitVec.ofInt 32 x.proto.number, kindAt S p d x, card, ?_, ?_, hc⟩
  · rw [← e]
    exact List.mem_map.2 ⟨_, List.mem_filterMap.2 ⟨x, hxm,
      (entryAt_some V (fun f hf => V.noExtendee hA hdm hf) hxm).2 (.inl ⟨h1, rfl⟩)⟩, rfl⟩
  · have := (V.ok hxm).number
    rw [V.number_toNat hxm]
    omega

/-- C96.  A oneof has one entry, with its members in order; a oneof with a single member is an
optional field. -/
theorem C96_oneofs (S : Setup) (ho : ∀ m, (order m).Perm m)
    (h : initPool order fs = .ok p) (hA : Accepted p) (fresh : Nat → Msg) (utf8 : List Byte → Bool) (w : Bool)
    {i : Nat} {d : MsgDesc} (hd : p.messages[i]? = some d) (he : d.proto.mapEntry = false)
    (f : FieldProto) (hf : f ∈ d.proto.fields) (k : Int) (hk : f.oneofIndex = some k) :
    (oneofFields d.proto.fields k = [f] ∧ ∃ n kind,
      SlotD.field n kind .optional ∈ ((classes S p fresh utf8 w).schema i).slots ∧ (n.toNat : Int) = f.number) ∨
    (2 ≤ (oneofFields d.proto.fields k).length ∧ ∃ alts, SlotD.oneof alts ∈ ((classes S p fresh utf8 w).schema i).slots ∧
      alts.map (fun a => (a.1.toNat : Int)) = (oneofFields d.proto.fields k).map (·.number)) := by
  have V := view_of order ho h hd
  have hdm := List.mem_of_getElem? hd
  have hx : ∀ f ∈ listed p d.fields, f.extendee = none := fun f hf => V.noExtendee hA hdm hf
  obtain ⟨x, hxm, rfl⟩ := view_field V hf
  rw [schema_at S p fresh utf8 w hd, class_slots he]
  have hM : oneofFields d.proto.fields k = ((listed p d.fields).filter fun g => g.proto.oneofIndex = some k).map (·.proto) := by
    unfold oneofFields
    rw [← V.protos, List.filter_map]
    rfl
  have hxf : x ∈ (listed p d.fields).filter fun g => g.proto.oneofIndex = some k := List.mem_filter.2 ⟨hxm, by simp [hk]⟩
  have num : ∀ g ∈ listed p d.fields, ((BitVec.ofInt 32 g.proto.number).toNat : Int) = g.proto.number := by
    intro g hg
    have := (V.ok hg).number
    rw [V.number_toNat hg]
    omega
  cases hL : (listed p d.fields).filter fun g => g.proto.oneofIndex = some k with
  | nil => rw [hL] at hxf; cases hxf
  | cons a rest =>
    rw [hL] at hM hxf
    have ha := leader_mem hL (.head _)
    have hent : Meta.slotOf S p fresh w (oneofEntry S p d (a :: rest)) ∈ slotsOf S p fresh w d (listed p d.fields) :=
      List.mem_map.2 ⟨_, List.mem_filterMap.2 ⟨a, ha.1, (entryAt_some V hx ha.1).2 (.inr ⟨k, rest, ha.2.1, hL, rfl⟩)⟩, rfl⟩
    cases rest with
    | nil =>
      have : x = a := by simpa using hxf
      subst this
      exact .inl ⟨hM, _, _, hent, num _ hxm⟩
    | cons b rest =>
      refine .inr ⟨by rw [hM]; simp, _, hent, ?_⟩
      rw [hM, List.map_map, List.map_map, List.map_map]
      refine List.map_congr_left ?_
      intro g hg
      exact num g (leader_mem hL hg).1

/-- C96.  The entries of a class, and with them the members and the records that are written, are in
the order of the fields; a oneof is where its first member is. -/
theorem C96_order (S : Setup) (ho : ∀ m, (order m).Perm m)
    (h : initPool order fs = .ok p) (hA : Accepted p) (fresh : Nat → Msg) (utf8 : List Byte → Bool) (w : Bool)
    {i : Nat} {d : MsgDesc} (hd : p.messages[i]? = some d) (he : d.proto.mapEntry = false) :
    ((classes S p fresh utf8 w).schema i).slots.map firstOf =
      (d.proto.fields.filter fun f => decide (Leads d.proto.fields f)).map (·.number) := by
  have V := view_of order ho h hd
  have hdm := List.mem_of_getElem? hd
  rw [schema_at S p fresh utf8 w hd, class_slots he]
  exact slots_order V (fun f hf => V.noExtendee hA hdm hf)

/-- C96.  The class of a map entry has a key and a value, always present, which start out as zero (or
as the default object). -/
theorem C96_entries (S : Setup) (ho : ∀ m, (order m).Perm m)
    (h : initPool order fs = .ok p) (hA : Accepted p) (fresh : Nat → Msg) (utf8 : List Byte → Bool) (w : Bool)
    {i : Nat} {d : MsgDesc} (hd : p.messages[i]? = some d) (he : d.proto.mapEntry = true) :
    ((classes S p fresh utf8 w).schema i).isEntry = true ∧ ((classes S p fresh utf8 w).schema i).unk = .none ∧
    ∃ key value, ((classes S p fresh utf8 w).schema i).slots =
      [.field 1 key (.always (zeroOf fresh key)), .field 2 value (.always (zeroOf fresh value))] := by
  have V := view_of order ho h hd
  obtain ⟨_, _, _, _, _, _, _, e⟩ := entry_slots (S := S) (fresh := fresh) (w := w) V hA (List.mem_of_getElem? hd) he
  rw [schema_at S p fresh utf8 w hd, e]
  exact ⟨rfl, rfl, _, _, rfl⟩

/-- C96.  The type `vint64_t` that stands in the metadata of an `int32` writes what `vint32_t` would
write, and what it reads, converted to `int32_t`, is what `vint32_t` would read. -/
theorem C96_int32 : (∀ v : BitVec 64, VarTy.i64.pack v = VarTy.i32.pack v) ∧
    ∀ g : Mem, (VarTy.i64.parse g).1 = (VarTy.i32.parse g).1 ∧
      ((VarTy.i64.parse g).1.isSome → VarTy.i32.cast (VarTy.i64.parse g).2 = (VarTy.i32.parse g).2) := by
  refine ⟨fun v => rfl, fun g => ?_⟩
  obtain ⟨_, h2, _, h4⟩ := C03_parse64 g
  obtain ⟨k1, _, _, k4, _⟩ := C03_parse32 g
  refine ⟨by rw [h2, k1], fun hs => ?_⟩
  rw [h2] at hs
  obtain ⟨n, hn⟩ := Option.isSome_iff_exists.1 hs
  rw [(h4 n hn).2.1, k4 n hn]
  have e : (BitVec.ofNat 64 (varintVal g n)).setWidth 32 = BitVec.ofNat 32 (varintVal g n) := by
    apply BitVec.eq_of_toNat_eq
    simp only [BitVec.toNat_setWidth, BitVec.toNat_ofNat]
    omega
  show ((BitVec.ofNat 64 (varintVal g n)).setWidth 32).signExtend 64 = _
  rw [e]

/-! ## C97: the option `proto2_explicit_presence` -/

/-- C97, in part.  With the option, an optional scalar or enum field of a proto2 message is held as
an optional if one of the scopes contains it, and as a plain member without presence otherwise.
Missing: scopes that end in the middle of a name, for which the claim is false (`C97_prefix`). -/
theorem C97_scopes_partial (S : Setup) (hS : S.explicit ≠ []) (ho : ∀ m, (order m).Perm m)
    (h : initPool order fs = .ok p) (hA : Accepted p) (fresh : Nat → Msg) (utf8 : List Byte → Bool) (w : Bool)
    {i : Nat} {d : MsgDesc} (hd : p.messages[i]? = some d) (he : d.proto.mapEntry = false)
    {file : FileDesc} (hfile : p.files[d.file]? = some file)
    (h2 : file.proto.syntaxName = [] ∨ file.proto.syntaxName = b!"proto2")
    (f : FieldProto) (hf : f ∈ d.proto.fields) (h1 : f.oneofIndex = none) (hl : f.label = 1)
    (ht : f.type ≠ 10 ∧ f.type ≠ 11)
    (hx : ∀ s ∈ S.explicit, s.drop 1 <+: d.fullName ++ b!"." ++ f.name → Within s (d.fullName ++ b!"." ++ f.name)) :
    ∃ n k card, SlotD.field n k card ∈ ((classes S p fresh utf8 w).schema i).slots ∧ (n.toNat : Int) = f.number ∧
      ((∃ s ∈ S.explicit, Within s (d.fullName ++ b!"." ++ f.name)) → card = .optional) ∧
      ((∀ s ∈ S.explicit, ¬ Within s (d.fullName ++ b!"." ++ f.name)) → ∃ v, card = .implicit v) := by
  have V := view_of order ho h hd
  have hdm := List.mem_of_getElem? hd
  obtain ⟨x, hxm, rfl⟩ := view_field V hf
  rw [schema_at S p fresh utf8 w hd, class_slots he]
  have hent : Meta.slotOf S p fresh w (fieldEntry S p d x) ∈ slotsOf S p fresh w d (listed p d.fields) :=
    List.mem_map.2 ⟨_, List.mem_filterMap.2 ⟨x, hxm,
      (entryAt_some V (fun f hf => V.noExtendee hA hdm hf) hxm).2 (.inl ⟨h1, rfl⟩)⟩, rfl⟩
  have hsyn : syntaxOf p d = b!"proto2" := by
    unfold syntaxOf
    rw [hfile]
    rcases h2 with h2 | h2 <;> simp [h2]
  have hopt : cppOptional S p d x = namedBy S.explicit (d.fullName ++ b!"." ++ x.proto.name) := by
    unfold cppOptional
    rw [he, if_neg (by simp), if_neg (by simp [hsyn, hS]), hl]
    have a1 : (x.proto.type == 11) = false := by simpa using ht.2
    have a2 : (x.proto.type == 10) = false := by simpa using ht.1
    rw [a1, a2]
    rfl
  have hreach : cppOptional S p d x = true ↔ ∃ s ∈ S.explicit, Within s (d.fullName ++ b!"." ++ x.proto.name) := by
    rw [hopt, namedBy_iff]
    constructor
    · rintro ⟨s, hs, hp⟩
      exact ⟨s, hs, hx s hs hp⟩
    · rintro ⟨s, hs, hp⟩
      refine ⟨s, hs, ?_⟩
      rcases hp with rfl | hp | hp
      · exact ⟨_, rfl⟩
      · rw [hp]; exact List.prefix_refl _
      · exact (List.prefix_append _ _).trans hp
  have hmb : x.bits.mapEntry = false := (V.resolved x hxm).other ht.1 ht.2
  have hpf : (under d.features x.proto.features).presence = 1 := hA.proto2 d hdm file hfile h2 _ (V.proto_mem x hxm)
  have hreq : x.bits.required = false := by
    rw [V.bits_required hxm]
    rw [← V.features x hxm] at hpf
    simp [fieldBits, hl, hpf]
  refine ⟨_, _, _, hent, ?_, ?_, ?_⟩
  · have := (V.ok hxm).number
    rw [V.number_toNat hxm]
    omega
  · intro hw
    have : holder S p d x = .optional := by
      unfold holder
      rw [if_neg (by simp [hmb]), if_neg (by omega), if_neg (by omega), if_pos (hreach.2 hw)]
    rw [this]
  · intro hw
    have hc : cppOptional S p d x = false := by
      cases hc : cppOptional S p d x with
      | false => rfl
      | true =>
        obtain ⟨s, hs, hp⟩ := hreach.1 hc
        exact absurd hp (hw s hs)
    have : ∃ init, holder S p d x = .plain init := by
      unfold holder
      rw [if_neg (by simp [hmb]), if_neg (by omega), if_neg (by omega), if_neg (by simp [hc])]
      split <;> exact ⟨_, rfl⟩
    obtain ⟨init, hh⟩ := this
    have hp : (metaOptions S p d x).presence = false := by
      show presenceOpt S p d x = false
      rw [presenceOpt_eq V hA hdm hxm, hc, hreq, h1]
      rfl
    rw [hh]
    simp only
    rw [if_neg (by rw [hp]; simp)]
    exact ⟨_, rfl⟩

/-- C97, in part.  Whatever the option, a field without presence starts out with the value that the
writer omits, so that a field that is not in the input has the value it had when it was not written.
Missing: string and bytes fields with a default value that lose their presence, for which the claim
is false (`C97_string_default`). -/
theorem C97_omitted_partial (S : Setup) (ho : ∀ m, (order m).Perm m)
    (h : initPool order fs = .ok p) (hA : Accepted p) (hD : DefaultsGiven S p) (hs : StringsReached S p)
    (fresh : Nat → Msg) (utf8 : List Byte → Bool) (i : Nat) :
    ((classes S p fresh utf8 true).schema i).slots = ((classes S p fresh utf8 false).schema i).slots := by
  cases hd : p.messages[i]? with
  | none =>
    unfold classes
    simp only [hd]
  | some d =>
    have V := view_of order ho h hd
    have hdm := List.mem_of_getElem? hd
    rw [schema_at S p fresh utf8 true hd, schema_at S p fresh utf8 false hd]
    cases he : d.proto.mapEntry with
    | true =>
      unfold classOf
      rw [if_pos he, if_pos he]
    | false =>
      rw [class_slots he, class_slots he]
      exact slots_same V hA hdm hD hs he

/-! ## C98: round trip for every schema -/

/-- C98.  If no class contains itself, every class has a default-constructed object. -/
theorem C98_objects (S : Setup) (ho : ∀ m, (order m).Perm m) (h : initPool order fs = .ok p) (hA : Accepted p)
    (utf8 : List Byte → Bool) (r : Nat → Nat) (hr : ∀ id sub, Nests S p id sub → r sub < r id) :
    ∃ fresh, Fresh S p utf8 fresh :=
  fresh_exists (fun _ _ hd => view_of order ho h hd) hA utf8 r hr

/-- C98, in part.  Whatever the files, what the generated class of any of their messages writes, the
generated class reads back.  Missing: files and options with one of the conditions listed in
`Supported`; for each of them the claim is false.  (`tidy` replaces -0.0 by 0.0 in fields without
presence, see C10.) -/
theorem C98_round_trip_partial (S : Setup) (ho : ∀ m, (order m).Perm m) (h : initPool order fs = .ok p) (hA : Accepted p)
    (hD : DefaultsGiven S p) (hs : Supported S p) (utf8 : List Byte → Bool) (hT : DefaultsTyped S p utf8) (hu : utf8 [] = true)
    (fresh : Nat → Msg) (hF : Fresh S p utf8 fresh) (limit id : Nat) (m old : Msg) (buf : List Byte)
    (hm : objLike false (classes S p fresh utf8 true) (limit + 1) id m)
    (hl : (wire (classes S p fresh utf8 true) limit id m).length < 2 ^ 64) :
    (∀ out, writeBinpb (classes S p fresh utf8 true) limit true id m buf = .ok (none, out) →
      readBinpb (classes S p fresh utf8 false) limit id old out =
        .ok (tidy (classes S p fresh utf8 true) (limit + 1) id m)) ∧
    (objOk (classes S p fresh utf8 true) (limit + 1) id m →
      tidy (classes S p fresh utf8 true) (limit + 1) id m = m) ∧
    ((wire (classes S p fresh utf8 true) limit id m).length < 2 ^ 31 - 1 →
      ∃ out, writeBinpb (classes S p fresh utf8 true) limit true id m buf = .ok (none, out)) := by
  have e : classes S p fresh utf8 true = classes S p fresh utf8 false := by
    unfold classes
    congr 1
    funext id
    cases hd : p.messages[id]? with
    | none => rfl
    | some d => exact class_same (view_of order ho h hd) hA (List.mem_of_getElem? hd) hD hs
  rw [e] at hm hl ⊢
  exact C10_round_trip_partial _ (schema_ok (fun _ _ hd => view_of order ho h hd) hA hs hT hu hF) limit id m old buf hm hl

/-! ## C99: unknown fields -/

/-- C99, in part.  Reader and writer agree on where unknown fields are: by number in a message with
extension ranges, in one byte string if the traits keep unknown fields, nowhere otherwise.  Missing:
messages without fields and extension ranges, for which the claim is false (`C99_dropped`). -/
theorem C99_unknown_partial (S : Setup) (ho : ∀ m, (order m).Perm m) (h : initPool order fs = .ok p)
    (fresh : Nat → Msg) (utf8 : List Byte → Bool) (w : Bool) {i : Nat} {d : MsgDesc} (hd : p.messages[i]? = some d)
    (he : d.proto.mapEntry = false) (hne : d.proto.fields ≠ [] ∨ S.ranged d.fullName = true) :
    ((classes S p fresh utf8 w).schema i).unk =
      if S.ranged d.fullName then .ext else if S.keeps then .bytes else .none := by
  have V := view_of order ho h hd
  rw [schema_at S p fresh utf8 w hd]
  unfold classOf
  rw [if_neg (by simp [he])]
  show unknownMode S p d w = _
  unfold unknownMode
  split
  · rfl
  · next hr =>
    have : (listed p d.fields).isEmpty = false := by
      cases hl : listed p d.fields with
      | nil =>
        have := V.protos
        rw [hl] at this
        rcases hne with h | h
        · exact absurd this.symm h
        · exact absurd h hr
      | cons _ _ => rfl
    simp [this]

end HppProto.Props
