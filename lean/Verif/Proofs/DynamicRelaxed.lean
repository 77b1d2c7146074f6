import Verif.Model.DynamicRead
import Verif.Model.DynamicWrite
import Verif.Spec.DynamicSame
import Verif.Spec.DynamicPool
import Verif.Spec.DynamicRead
import Verif.Proofs.Dynamic

/-! Dynamic messages are written and read without regard to `required`. -/

namespace HppProto

section
variable (T : DynTypes) (f : DynField) (m : DynMsg)

theorem relaxed_explicit : f.relaxed.explicit = f.explicit := by
  obtain ⟨n, k, r, p, o, q, e, d, l⟩ := f
  show (presenceFor r o false (q || e) == .explicit || presenceFor r o false (q || e) == .required ||
      presenceFor r o false (q || e) == .oneof) =
    (presenceFor r o q e == .explicit || presenceFor r o q e == .required || presenceFor r o q e == .oneof)
  cases r <;> cases o <;> cases q <;> cases e <;> rfl

theorem relaxed_hasValue : f.relaxed.hasValue m = f.hasValue m := rfl

theorem relaxed_value : f.relaxed.value m = f.value m := by
  have hn : f.relaxed.numValue m = f.numValue m := by
    simp only [DynField.numValue, relaxed_explicit]; rfl
  have hs : f.relaxed.strValue m = f.strValue m := by
    simp only [DynField.strValue, relaxed_explicit]; rfl
  simp only [DynField.value, hn, hs]
  rfl

theorem relaxed_present : f.relaxed.present m = f.present m := by
  simp only [DynField.present, relaxed_explicit, relaxed_value]
  rfl

/-! ## Writing -/

theorem relaxed_countFields (rec : Nat → DynMsg → Res (Nat × Bool)) :
    ∀ fs : List DynField, dynCountFields rec m (fs.map DynField.relaxed) = dynCountFields rec m fs
  | [] => rfl
  | f :: fs => by
    have h : dynCountField rec f.relaxed m = dynCountField rec f m := by
      simp only [dynCountField, relaxed_value]; rfl
    simp only [List.map_cons, dynCountFields, relaxed_present, h, relaxed_countFields rec fs]

theorem relaxed_count : ∀ d, dynCount T.relaxed d = dynCount T d
  | 0 => rfl
  | d + 1 => by
    funext id m
    simp only [dynCount, relaxed_count d]
    exact relaxed_countFields m _ _

theorem relaxed_sizeFields (rec : Nat → DynMsg → CacheSt → Res (Nat × CacheSt)) :
    ∀ (fs : List DynField) (acc : Nat) (st : CacheSt),
      dynSizeFields rec m acc (fs.map DynField.relaxed) st = dynSizeFields rec m acc fs st
  | [], _, _ => rfl
  | f :: fs, acc, st => by
    have h : ∀ st, dynSizeField rec f.relaxed m st = dynSizeField rec f m st := by
      intro st; simp only [dynSizeField, relaxed_value]; rfl
    simp only [List.map_cons, dynSizeFields, relaxed_present, h, relaxed_sizeFields rec fs]

theorem relaxed_size : ∀ d, dynSize T.relaxed d = dynSize T d
  | 0 => rfl
  | d + 1 => by
    funext id m st
    simp only [dynSize, relaxed_size d]
    exact relaxed_sizeFields m _ _ _ _

theorem relaxed_serFields (utf8 : List Byte → Bool) (cache : List Nat) (rec : Nat → DynMsg → Nat → SerOut) :
    ∀ fs : List DynField,
      dynSerFields utf8 cache rec m (fs.map DynField.relaxed) = dynSerFields utf8 cache rec m fs
  | [] => rfl
  | f :: fs => by
    funext pos
    have h : dynSerField utf8 cache rec f.relaxed m pos = dynSerField utf8 cache rec f m pos := by
      simp only [dynSerField, relaxed_value]; rfl
    simp only [List.map_cons, dynSerFields, relaxed_present, h, relaxed_serFields utf8 cache rec fs]

theorem relaxed_ser (utf8 : List Byte → Bool) (cache : List Nat) :
    ∀ d, dynSer T.relaxed utf8 cache d = dynSer T utf8 cache d
  | 0 => rfl
  | d + 1 => by
    funext id m pos
    simp only [dynSer, relaxed_ser utf8 cache d]
    exact congrFun (relaxed_serFields m _ _ _ _) pos

theorem relaxed_write (utf8 : List Byte → Bool) (limit : Nat) (growable : Bool) (id : Nat) (buf : List Byte) :
    dynWrite T.relaxed utf8 limit growable id m buf = dynWrite T utf8 limit growable id m buf := by
  simp only [dynWrite, dynWriteWithCache, relaxed_count, relaxed_size, relaxed_ser]

/-! ## Reading -/

variable {σ : Type} (utf8 : List Byte → Bool) (O : Ops σ)

theorem relaxed_sized (l : DynLevel σ) : dynSized T.relaxed O l = dynSized T O l := rfl

theorem relaxed_setAsDefault : f.relaxed.setAsDefault T.relaxed m = f.setAsDefault T m := rfl

theorem relaxed_fill (id : Nat) : fillEntry T.relaxed (T.relaxed id) m = fillEntry T (T id) m := by
  simp only [fillEntry, DynTypes.relaxed, List.getElem?_map]
  cases (T id).fields[1]? with
  | none => rfl
  | some f => rfl

theorem relaxed_message (l : DynLevel σ) : dynMessage T.relaxed O l = dynMessage T O l := by
  funext k tag m s
  cases k with
  | msg id =>
    simp only [dynMessage, relaxed_sized, relaxed_fill]
    rfl
  | _ => rfl

theorem relaxed_msgField (l : DynLevel σ) (id : Nat) :
    dynMsgField T.relaxed O l f.relaxed id = dynMsgField T O l f id := by
  funext tag m s
  simp only [dynMsgField, relaxed_message]
  rfl

theorem relaxed_singular (l : DynLevel σ) :
    dynSingular T.relaxed utf8 O l f.relaxed = dynSingular T utf8 O l f := by
  have h1 : f.relaxed.putRead = f.putRead := by
    funext v m
    simp only [DynField.putRead, relaxed_explicit]
    rfl
  have h2 : f.relaxed.putReadStr = f.putReadStr := by
    funext v m
    simp only [DynField.putReadStr, relaxed_explicit]
    rfl
  funext tag m s
  simp only [dynSingular, h1, h2, relaxed_msgField]
  rfl

theorem relaxed_msgs (l : DynLevel σ) (id : Nat) : dynMsgs T.relaxed O l f.relaxed id = dynMsgs T O l f id := by
  funext tag m s
  simp only [dynMsgs, relaxed_message]
  rfl

theorem relaxed_repeated (l : DynLevel σ) :
    dynRepeated T.relaxed utf8 O l f.relaxed = dynRepeated T utf8 O l f := by
  funext tag m s
  simp only [dynRepeated, relaxed_msgs]
  rfl

theorem relaxed_field (l : DynLevel σ) (id : Nat) :
    dynField T.relaxed utf8 O l (T.relaxed id) = dynField T utf8 O l (T id) := by
  funext tag m s
  have hf : (T.relaxed id).fields.find? (fun f => f.number == tagNumber tag) =
      ((T id).fields.find? fun f => f.number == tagNumber tag).map DynField.relaxed := by
    simp only [DynTypes.relaxed, List.find?_map]
    rfl
  simp only [dynField, hf]
  cases (T id).fields.find? fun f => f.number == tagNumber tag with
  | none => rfl
  | some f =>
    simp only [Option.map_some, relaxed_repeated, relaxed_singular]
    rfl

theorem relaxed_loop (l : DynLevel σ) (id : Nat) : ∀ fuel,
    dynLoop T.relaxed utf8 O l (T.relaxed id) fuel = dynLoop T utf8 O l (T id) fuel
  | 0 => rfl
  | fuel + 1 => by
    funext m s
    simp only [dynLoop, relaxed_field, relaxed_loop l id fuel]

theorem relaxed_grpLoop (l : DynLevel σ) (id : Nat) (n : BitVec 32) : ∀ fuel,
    dynGrpLoop T.relaxed utf8 O l (T.relaxed id) n fuel = dynGrpLoop T utf8 O l (T id) n fuel
  | 0 => rfl
  | fuel + 1 => by
    funext m s
    simp only [dynGrpLoop, relaxed_field, relaxed_grpLoop l id n fuel]

theorem relaxed_level : ∀ d, dynLevel T.relaxed utf8 O d = dynLevel T utf8 O d
  | 0 => rfl
  | d + 1 => by
    simp only [dynLevel, relaxed_level d, dynBody, relaxed_loop, relaxed_grpLoop]
    rfl

theorem relaxed_read (limit id : Nat) (old : DynMsg) (buf : List Byte) :
    dynRead T.relaxed utf8 limit id old buf = dynRead T utf8 limit id old buf := by
  simp only [dynRead, relaxed_level]
  rfl

end

/-! ## Conditions on the types -/

theorem relaxed_ok {T : DynTypes} (hT : ∀ id, (T id).Ok) (id : Nat) : (T.relaxed id).Ok where
  laid := by
    obtain ⟨c, h1, h2⟩ := (hT id).laid
    refine ⟨c, ?_, ?_⟩
    · intro f hf
      obtain ⟨f, hf', rfl⟩ := List.mem_map.1 hf
      replace hf := hf'
      exact h1 f hf
    · simp only [DynTypes.relaxed, List.map_map]
      exact h2
  singularMembers := by
    intro f hf
    obtain ⟨f, hf', rfl⟩ := List.mem_map.1 hf
    replace hf := hf'
    exact (hT id).singularMembers f hf
  zeroDefaults := by
    intro f hf
    obtain ⟨f, hf', rfl⟩ := List.mem_map.1 hf
    replace hf := hf'
    rw [relaxed_explicit]
    exact (hT id).zeroDefaults f hf

theorem relaxed_pooled {T : DynTypes} (hP : ∀ id, (T id).Pooled) (id : Nat) : (T.relaxed id).Pooled where
  packed := by
    intro f hf
    obtain ⟨f, hf', rfl⟩ := List.mem_map.1 hf
    replace hf := hf'
    exact (hP id).packed f hf
  entryExplicit := by
    intro he f hf hr
    obtain ⟨f, hf', rfl⟩ := List.mem_map.1 hf
    replace hf := hf'
    rw [relaxed_explicit]
    exact (hP id).entryExplicit he f hf hr

theorem relaxed_maps {T : DynTypes} (hM : T.MapsRepeated) : T.relaxed.MapsRepeated := by
  intro id f hf
  obtain ⟨f, hf', rfl⟩ := List.mem_map.1 hf
  replace hf := hf'
  exact hM id f hf

/-- Readable types stay readable. -/
theorem relaxed_readable {T : DynTypes} (hR : T.Readable) : T.relaxed.Readable where
  distinct id := by
    simp only [DynTypes.relaxed, List.map_map]
    exact hR.distinct id
  entries id he := by
    obtain ⟨k, v, h1, h2, h3, h4, h5, h6, h7, h8, h9, h10⟩ := hR.entries id he
    refine ⟨k.relaxed, v.relaxed, by simp [DynTypes.relaxed, h1], h2, h3, h4, h5, h6, h7, ?_, ?_, h10⟩
    · rw [relaxed_explicit, h8]
    · rw [relaxed_explicit, h9]
  closed := by
    intro id f hf hc hr
    obtain ⟨f, hf', rfl⟩ := List.mem_map.1 hf
    replace hf := hf'
    rw [relaxed_explicit]
    exact ⟨(hR.closed id f hf hc hr).1, rfl⟩
  enums := by
    intro id f hf
    obtain ⟨f, hf', rfl⟩ := List.mem_map.1 hf
    replace hf := hf'
    exact hR.enums id f hf

/-! ## The specification -/

theorem relaxed_sent (f : DynField) (m : DynMsg) : f.relaxed.sent m ↔ f.sent m := by
  unfold DynField.sent holdsValue
  simp only [relaxed_explicit, relaxed_value, relaxed_hasValue]
  rfl

theorem relaxed_restored {T : DynTypes} : ∀ {d id : Nat} {m m' : DynMsg},
    RestoredAt T.relaxed d id m m' → RestoredAt T d id m m'
  | 0, _, _, _, h => h
  | d + 1, id, m, m', ⟨h1, h2⟩ => by
    refine ⟨h1, fun f hf => ?_⟩
    obtain ⟨a, b⟩ := h2 f.relaxed (List.mem_map_of_mem hf)
    refine ⟨fun hr => ?_, fun hr => ?_⟩
    · have := a hr
      unfold sameElems at this ⊢
      simp only [relaxed_value, show f.relaxed.kind = f.kind from rfl] at this
      cases hk : f.kind with
      | scalar _ => rw [hk] at this; exact this
      | msg id =>
        rw [hk] at this
        obtain ⟨ss, ss', c1, c2, c3, c4⟩ := this
        exact ⟨ss, ss', c1, c2, c3, fun p hp => relaxed_restored (c4 p hp)⟩
      | group id =>
        rw [hk] at this
        obtain ⟨ss, ss', c1, c2, c3, c4⟩ := this
        exact ⟨ss, ss', c1, c2, c3, fun p hp => relaxed_restored (c4 p hp)⟩
    · obtain ⟨b1, b2⟩ := b hr
      rw [relaxed_sent] at b1 b2
      refine ⟨b1, fun hs => ?_⟩
      have := b2 hs
      unfold sameValue at this ⊢
      simp only [relaxed_value, show f.relaxed.kind = f.kind from rfl] at this
      cases hk : f.kind with
      | scalar _ => rw [hk] at this; exact this
      | msg id =>
        rw [hk] at this
        obtain ⟨s, s', c1, c2, c3⟩ := this
        exact ⟨s, s', c1, c2, relaxed_restored c3⟩
      | group id =>
        rw [hk] at this
        obtain ⟨s, s', c1, c2, c3⟩ := this
        exact ⟨s, s', c1, c2, relaxed_restored c3⟩

theorem relaxed_fine {T : DynTypes} {C : Cfg} : ∀ {d id : Nat} {m : DynMsg},
    FineAt T C d id m → FineAt T.relaxed C d id m
  | 0, _, _, h => h
  | d + 1, id, m, h => by
    intro f hf
    obtain ⟨f, hf', rfl⟩ := List.mem_map.1 hf
    replace hf := hf'
    obtain ⟨a, b⟩ := h f hf
    refine ⟨fun hr => ?_, fun hr hv => ?_⟩
    · have := a hr
      unfold fineElems at this ⊢
      simp only [relaxed_value, show f.relaxed.kind = f.kind from rfl]
      cases hk : f.kind with
      | scalar _ => rw [hk] at this; exact this
      | msg id =>
        rw [hk] at this
        obtain ⟨ss, c1, c2⟩ := this
        exact ⟨ss, c1, fun s hs => relaxed_fine (c2 s hs)⟩
      | group id =>
        rw [hk] at this
        obtain ⟨ss, c1, c2⟩ := this
        exact ⟨ss, c1, fun s hs => relaxed_fine (c2 s hs)⟩
    · have := b hr hv
      unfold fineValue at this ⊢
      simp only [relaxed_value, show f.relaxed.kind = f.kind from rfl]
      cases hk : f.kind with
      | scalar _ => rw [hk] at this; exact this
      | msg id =>
        rw [hk] at this
        obtain ⟨s, c1, c2⟩ := this
        exact ⟨s, c1, relaxed_fine c2⟩
      | group id =>
        rw [hk] at this
        obtain ⟨s, c1, c2⟩ := this
        exact ⟨s, c1, relaxed_fine c2⟩

end HppProto
