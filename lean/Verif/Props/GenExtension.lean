import Verif.Proofs.GenExtension
import Verif.Props.MetaMore
import Verif.Props.Extension

/-!
# C123: the structs that are generated for extensions

`initPool order fs = .ok p`: `p` is the pool of the files `fs` (C71-C75).  `library S dflt p fresh utf8 w`: what
reader (`w = false`) and writer (`w = true`) make of the classes of the messages of `p` (C96-C99) and of the structs
of its extensions; the struct of the extension that is at position `j` among the fields of the pool has the number
`extId p j`.  `dflt` gives the default values of extensions.  `extSet`, `extGet` and `extIn` are `set_to`,
`get_from` and `in` (C43).  The rules are in `Verif/Spec/GenExtension.lean`.
-/

namespace HppProto.Props
open Spec Meta

variable {order : FileMap → FileMap} {fs : List FileProto} {p : Pool}

theorem pool_enum_names (ho : ∀ m, (order m).Perm m) (h : initPool order fs = .ok p) :
    (p.enums.map (·.fullName)).Nodup := by
  have hs := initPool_sat order ho fs
  rw [h] at hs
  obtain ⟨⟨_, _, _, _, _, st⟩, hw⟩ := hs
  have hp := (st.mirrors.all_enums).map (·.name)
  rw [List.map_map] at hp
  exact hp.nodup_iff.2 hw.enum_names

/-- Reader and writer see the same library, and it meets the conditions of the theorems on messages. -/
theorem library_facts {S : Setup} {dflt : FieldProto → Option Val} (ho : ∀ m, (order m).Perm m) (h : initPool order fs = .ok p)
    (hA : Accepted p) (hD : DefaultsGiven S p) (hs : Supported S p) (hX : ExtAccepted p) (hE : ExtSupported dflt p)
    {utf8 : List Byte → Bool} (hT : DefaultsTyped S p utf8) (hTE : ExtDefaultsTyped dflt p utf8) (hu : utf8 [] = true)
    {fresh : Nat → Msg} (hF : Fresh S p utf8 fresh) :
    library S dflt p fresh utf8 true = library S dflt p fresh utf8 false ∧ schemaOk (library S dflt p fresh utf8 false) := by
  have hV : ∀ (i : Nat) (d : MsgDesc), p.messages[i]? = some d → View p d (listed p d.fields) :=
    fun _ _ hd => view_of order ho h hd
  have hK : ∀ f ∈ p.fields, Known p f := fun f hf => known_of order ho h hf
  refine ⟨library_same hK ?_ hE, library_ok hK (schema_ok hV hA hs hT hu hF) hA hX hE hTE hu ?_ hF⟩
  · unfold classes
    congr 1
    funext id
    cases hd : p.messages[id]? with
    | none => rfl
    | some d => exact class_same (hV id d hd) hA (List.mem_of_getElem? hd) hD hs
  · exact fun id n k card _ hm sub hk => class_sub hV hA hm hk

/-- C123.  The struct of an extension has one member, with the number of the extension and the kind of value
that the encoding rules ask for; it is a list exactly if the extension is repeated, and then packed as the rules
ask for.  Missing: `packed = false` where the feature says packed, for which the claim is false (C96). -/
theorem C123_struct_partial (S : Setup) (dflt : FieldProto → Option Val) (ho : ∀ m, (order m).Perm m)
    (h : initPool order fs = .ok p) (hX : ExtAccepted p) (fresh : Nat → Msg) (utf8 : List Byte → Bool) (w : Bool)
    {j : Nat} {f : FieldDesc} (hj : p.fields[j]? = some f) (he : f.proto.extendee ≠ []) :
    ∃ n k card, (library S dflt p fresh utf8 w).schema (extId p j) = { slots := [.field n k card], unk := .none } ∧
      (n.toNat : Int) = f.proto.number ∧ ExtKindRule p f.proto f.features k ∧
      ((∃ pk, card = .repeated pk) ↔ f.proto.label = 3) ∧
      (¬ (f.proto.packed = some false ∧ f.features.repeatedEncoding = 1) →
        ∀ pk, card = .repeated pk → (pk = true ↔ packed f.proto f.features)) := by
  have hf := List.mem_of_getElem? hj
  have K := known_of order ho h hf
  refine ⟨_, _, _, library_ext S dflt fresh utf8 w hj (K.extendee he), K.number, ext_kind K, ?_, ?_⟩
  · constructor
    · rintro ⟨pk, hpk⟩
      split at hpk
      · assumption
      · split at hpk <;> cases hpk
    · intro hl
      exact ⟨_, if_pos hl⟩
  · intro hp pk hpk
    have hflags := (C74_flags_partial order ho h f hf).2.2.2.1 hp
    split at hpk
    · next hl =>
      cases hpk
      rw [← hflags]
      have : (extOptions p f).presence = false := by
        simp only [extOptions, K.required (hX.required f hf he), hX.oneof f hf he]
        simp [hl]
      simp only [extOptions] at this ⊢
      rw [this]
      simp
    · split at hpk <;> cases hpk

/-- C123, in part.  An extension that is not repeated is written unless it has its default value; messages
and closed enums are always written, and of a list all elements.  The full claim is that an extension, which has
presence, is written whenever it is set; it is false (`C123_default_lost`). -/
theorem C123_written_partial (S : Setup) (dflt : FieldProto → Option Val) (ho : ∀ m, (order m).Perm m)
    (h : initPool order fs = .ok p) (hX : ExtAccepted p) (fresh : Nat → Msg) (utf8 : List Byte → Bool) (limit : Nat)
    {j : Nat} {f : FieldDesc} (hj : p.fields[j]? = some f) (he : f.proto.extendee ≠ []) :
    (f.proto.label ≠ 3 → ∀ v d k, ExtDefaultRule p (dflt f.proto) f.proto d →
      fieldKind ((library S dflt p fresh utf8 true).schema (extId p j)) f.proto.number.toNat = some k →
      (wire (library S dflt p fresh utf8 true) limit (extId p j) ⟨[[(0, v)]], []⟩ = [] ↔
        f.proto.type ≠ 10 ∧ f.proto.type ≠ 11 ∧ ¬ closedEnum p f.proto ∧ isDefault k d v = true)) ∧
    (f.proto.label = 3 → ∀ es, wire (library S dflt p fresh utf8 true) limit (extId p j) ⟨[es], []⟩ = [] ↔ es = []) := by
  have hf := List.mem_of_getElem? hj
  have K := known_of order ho h hf
  have hsch := library_ext S dflt fresh utf8 true hj (K.extendee he)
  have hN := pool_enum_names ho h
  constructor
  · intro hl v d k hd hk
    have hl1 : f.proto.label = 1 := by
      have h1 := K.ok.label
      have h2 := hX.required f hf he
      unfold required at h2
      omega
    have hk' : k = extKind p f := by
      rw [hsch] at hk
      simp only [fieldKind, List.findSome?_cons, List.findSome?_nil, slotKind] at hk
      rw [if_pos (by have := K.number; have := K.ok.number; omega)] at hk
      simpa using hk.symm
    subst hk'
    have hpres : (extOptions p f).presence = isClosedEnum p f := by
      simp only [extOptions, K.required (hX.required f hf he), hX.oneof f hf he, K.extendee he, hl1]
      simp
    unfold wire
    rw [Spec.encode, hsch]
    rw [if_neg hl, hpres]
    have hc := closedEnum_iff K hN
    cases hce : isClosedEnum p f with
    | true =>
      simp only [if_true, List.zip_cons_cons, List.zip_nil_left, List.flatMap_cons, List.flatMap_nil, List.append_nil, member]
      constructor
      · intro h0; exact absurd h0 (record_ne _ _ _ _ _)
      · rintro ⟨_, _, h3, _⟩; exact absurd (hc.1 hce) h3
    | false =>
      have hnc : ¬ closedEnum p f.proto := fun x => by rw [hc.2 x] at hce; cases hce
      simp only [Bool.false_eq_true, if_false, if_true, List.zip_cons_cons, List.zip_nil_left, List.flatMap_cons, List.flatMap_nil,
        List.append_nil, member]
      by_cases ht : f.proto.type = 10 ∨ f.proto.type = 11
      · obtain ⟨i, m, hi, hm, _⟩ := K.resolved.message ht
        have hno : ∀ a b, isDefault (extKind p f) a b = false := by
          intro a b
          unfold extKind
          have : (cppType f) = (.msg i, .void) := by
            rcases ht with t | t <;> simp [cppType, t, hi]
          rw [this]
          simp only [valueKind]
          split <;> rfl
        rw [if_neg (by rw [hno]; simp)]
        constructor
        · intro h0; exact absurd h0 (record_ne _ _ _ _ _)
        · rintro ⟨h1, h2, _⟩; omega
      · have h10 : f.proto.type ≠ 10 := fun x => ht (.inl x)
        have h11 : f.proto.type ≠ 11 := fun x => ht (.inr x)
        obtain ⟨sc, _, hz⟩ := zero_value K fresh h10 h11
        have hdd : (extDefault dflt p f).getD (zeroOf fresh (extKind p f)) = d := by
          unfold extDefault
          unfold ExtDefaultRule at hd
          cases hg : dflt f.proto with
          | some x =>
            rw [hg] at hd
            exact hd.symm
          | none =>
            rw [hg] at hd
            simp only [hl1, beq_self_eq_true, if_true]
            simp only at hd
            by_cases h14 : f.proto.type = 14
            · rw [if_pos h14] at hd
              obtain ⟨e, hem, hen, n, hn, rfl⟩ := hd
              obtain ⟨i, e', hi, he', hn'⟩ := K.resolved.enum h14
              have : e' = e := by
                obtain ⟨k, hk⟩ := List.mem_iff_getElem?.1 hem
                have hnn : e'.fullName = e.fullName := List.append_cancel_left (hn'.symm.trans hen)
                have := nodup_map_get hN he' hk hnn
                subst this
                rw [he'] at hk
                exact Option.some.inj hk
              subst this
              unfold enumOf
              rw [if_pos h14, hi]
              simp [he', firstNumber, hn]
            · rw [if_neg h14] at hd
              rw [enumOf_none h14]
              simp only [Option.bind_none, Option.getD_none]
              rw [hz, hd]
        rw [hdd]
        constructor
        · intro h0
          refine ⟨h10, h11, hnc, ?_⟩
          split at h0
          · assumption
          · exact absurd h0 (record_ne _ _ _ _ _)
        · rintro ⟨_, _, _, h4⟩
          rw [if_pos h4]
  · intro hl es
    unfold wire
    rw [Spec.encode, hsch, if_pos hl]
    simp only [List.zip_cons_cons, List.zip_nil_left, List.flatMap_cons, List.flatMap_nil, List.append_nil]
    cases es with
    | nil =>
      simp only [iff_true]
      unfold member
      simp only
      split <;> simp
    | cons a es =>
      simp only [reduceCtorEq, iff_false]
      unfold member
      simp only
      split
      · next hh => cases hh
      · split
        · rw [if_neg (by simp)]
          simp [lenRecord, tag, leb_ne]
        · simp [record_ne]
      · simp [record_ne]

/-- C123, in part.  If setting a generated extension succeeds and its value has an encoding
(`C123_written_partial`), then the message has the extension, getting it gives the value, and nothing else of the
message has changed.  Missing: what C43 and C98 leave out, and defaults of strings with a zero in them
(`C123_string_default`). -/
theorem C123_set_get_partial (S : Setup) (dflt : FieldProto → Option Val) (ho : ∀ m, (order m).Perm m)
    (h : initPool order fs = .ok p) (hA : Accepted p) (hD : DefaultsGiven S p) (hs : Supported S p) (hX : ExtAccepted p)
    (hE : ExtSupported dflt p) (utf8 : List Byte → Bool) (hT : DefaultsTyped S p utf8) (hTE : ExtDefaultsTyped dflt p utf8)
    (hu : utf8 [] = true) (fresh : Nat → Msg) (hF : Fresh S p utf8 fresh) (limit j : Nat) (n : BitVec 32) (owning : Bool)
    (m m' x : Msg) (hx : objLike false (library S dflt p fresh utf8 true) (limit + 1) (extId p j) x)
    (hl : (wire (library S dflt p fresh utf8 true) limit (extId p j) x).length < 2 ^ 64)
    (hset : extSet (library S dflt p fresh utf8 true) limit owning (extId p j) n m x = .ok (none, m'))
    (h0 : wire (library S dflt p fresh utf8 true) limit (extId p j) x ≠ [])
    (hf : owning = false → extIn n m = false) :
    extIn n m' = true ∧
    (∀ old, extGet (library S dflt p fresh utf8 false) limit owning (extId p j) n m' old =
      .ok (tidy (library S dflt p fresh utf8 true) (limit + 1) (extId p j) x)) ∧
    m'.slots = m.slots ∧
    ∀ limit' ext' n' old, n' ≠ n → extIn n' m' = extIn n' m ∧
      extGet (library S dflt p fresh utf8 false) limit' owning ext' n' m' old =
        extGet (library S dflt p fresh utf8 false) limit' owning ext' n' m old := by
  obtain ⟨e, hS⟩ := library_facts ho h hA hD hs hX hE hT hTE hu hF
  rw [e] at hx hl hset h0 ⊢
  exact C43_set_get_partial _ hS limit _ owning n m m' x hx hl hset h0 hf

/-- C123, in part, through the wire.  The extension also survives writing and reading the message that it extends.
Missing: as above. -/
theorem C123_survives_partial (S : Setup) (dflt : FieldProto → Option Val) (ho : ∀ m, (order m).Perm m)
    (h : initPool order fs = .ok p) (hA : Accepted p) (hD : DefaultsGiven S p) (hs : Supported S p) (hX : ExtAccepted p)
    (hE : ExtSupported dflt p) (utf8 : List Byte → Bool) (hT : DefaultsTyped S p utf8) (hTE : ExtDefaultsTyped dflt p utf8)
    (hu : utf8 [] = true) (fresh : Nat → Msg) (hF : Fresh S p utf8 fresh) (limit i j : Nat) (owning : Bool)
    {d : MsgDesc} (hd : p.messages[i]? = some d) (hr : S.ranged d.fullName = true)
    {f : FieldDesc} (hj : p.fields[j]? = some f) (hfd : f.proto.extendee = b!"." ++ d.fullName)
    (n : BitVec 32) (hn : (n.toNat : Int) = f.proto.number)
    (m m' m'' x old : Msg) (out buf : List Byte)
    (hm : objLike false (library S dflt p fresh utf8 true) (limit + 1) i m)
    (hx : objLike false (library S dflt p fresh utf8 true) (limit + 1) (extId p j) x)
    (hl : (wire (library S dflt p fresh utf8 true) limit (extId p j) x).length < 2 ^ 64)
    (hset : extSet (library S dflt p fresh utf8 true) limit owning (extId p j) n m x = .ok (none, m'))
    (h0 : wire (library S dflt p fresh utf8 true) limit (extId p j) x ≠ [])
    (hf : owning = false → extIn n m = false)
    (hl' : (wire (library S dflt p fresh utf8 true) limit i m').length < 2 ^ 64)
    (hw : writeBinpb (library S dflt p fresh utf8 true) limit true i m' buf = .ok (none, out))
    (hrd : readBinpb (library S dflt p fresh utf8 false) limit i old out = .ok m'') :
    (∀ old, extGet (library S dflt p fresh utf8 false) limit owning (extId p j) n m'' old =
      .ok (tidy (library S dflt p fresh utf8 true) (limit + 1) (extId p j) x)) ∧
    ∀ limit' ext' n' old, n' ≠ n → extIn n' m'' = extIn n' m ∧
      extGet (library S dflt p fresh utf8 false) limit' owning ext' n' m'' old =
        extGet (library S dflt p fresh utf8 false) limit' owning ext' n' m old := by
  obtain ⟨e, hS⟩ := library_facts ho h hA hD hs hX hE hT hTE hu hF
  rw [e] at hm hx hl hset h0 hl' hw ⊢
  have hfm := List.mem_of_getElem? hj
  have hdm := List.mem_of_getElem? hd
  have K := known_of order ho h hfm
  have V := view_of order ho h hd
  have hne : f.proto.extendee ≠ [] := by rw [hfd]; simp
  have hi : i < p.messages.length := (List.getElem?_eq_some_iff.1 hd).1
  have hnb : BitVec.ofInt 32 f.proto.number = n := by
    apply BitVec.eq_of_toNat_eq
    have := K.number
    omega
  refine C43_survives_partial _ hS limit (extId p j) i owning n m m' m'' x old out buf ?_ ?_ ?_ hm hx hl hset h0 hf hl' hw hrd
  · rw [library_ext S dflt fresh utf8 false hj (K.extendee hne), hnb]
    exact ⟨⟨_, _, rfl⟩, rfl, rfl⟩
  · rw [library_class S dflt fresh utf8 false hi,
      C99_unknown_partial S ho h fresh utf8 false hd (hX.extendee f hfm hne d hdm hfd) (.inr hr), if_pos hr]
  · rw [library_class S dflt fresh utf8 false hi]
    cases hk : fieldKind ((classes S p fresh utf8 false).schema i) n.toNat with
    | none => rfl
    | some k =>
      exfalso
      unfold fieldKind at hk
      rw [schema_at S p fresh utf8 false hd] at hk
      obtain ⟨g, hg, hgn, _⟩ := (class_number V hA hdm n.toNat k).1 hk
      have hgp : g.proto ∈ d.proto.fields := by
        rw [← V.protos]
        exact List.mem_map.2 ⟨g, hg, rfl⟩
      have := hX.free f hfm hne d hdm hfd g.proto hgp
      have h1 := (V.ok hg).number
      omega

/-- Where C123 fails: setting an extension to its default value leaves the message as it is, whatever it holds. -/
theorem C123_default_ignored (S : Setup) (dflt : FieldProto → Option Val) (ho : ∀ m, (order m).Perm m)
    (h : initPool order fs = .ok p) (hA : Accepted p) (hD : DefaultsGiven S p) (hs : Supported S p) (hX : ExtAccepted p)
    (hE : ExtSupported dflt p) (utf8 : List Byte → Bool) (hT : DefaultsTyped S p utf8) (hTE : ExtDefaultsTyped dflt p utf8)
    (hu : utf8 [] = true) (fresh : Nat → Msg) (hF : Fresh S p utf8 fresh) (limit : Nat) (owning : Bool) (n : BitVec 32)
    {j : Nat} {f : FieldDesc} (hj : p.fields[j]? = some f) (he : f.proto.extendee ≠ []) (hl : f.proto.label ≠ 3)
    (h10 : f.proto.type ≠ 10) (h11 : f.proto.type ≠ 11) (hc : ¬ closedEnum p f.proto)
    (d : Val) (hd : ExtDefaultRule p (dflt f.proto) f.proto d) (k : Kind)
    (hk : fieldKind ((library S dflt p fresh utf8 true).schema (extId p j)) f.proto.number.toNat = some k)
    (heq : isDefault k d d = true) (m m' : Msg)
    (hset : extSet (library S dflt p fresh utf8 true) limit owning (extId p j) n m ⟨[[(0, d)]], []⟩ = .ok (none, m')) :
    m' = m := by
  have h0 := ((C123_written_partial S dflt ho h hX fresh utf8 limit hj he).1 hl d d k hd hk).2 ⟨h10, h11, hc, heq⟩
  obtain ⟨e, hS⟩ := library_facts ho h hA hD hs hX hE hT hTE hu hF
  rw [e] at h0 hset
  exact C43_empty_ignored _ hS limit _ owning n m m' _ h0 hset

/-- C123: a field that extends nothing has no such struct; asking for one is a null dereference. -/
theorem C123_no_extendee (dflt : FieldProto → Option Val) (fresh : Nat → Msg) (w : Bool) (f : FieldDesc) (h : f.extendee = none) :
    extStruct dflt p fresh w f = .ub := by
  simp [extStruct, h]

/-! ## Examples -/

/-- A proto2 file: a message with extension ranges and a number, a closed enum, and extensions of several types. -/
def extFile : FileProto :=
  { name := b!"x.proto", package := b!"q"
    enums := [{ name := b!"K", values := [(b!"K_3", 3), (b!"K_1", 1)] }]
    messages := [.mk b!"M" [{ name := b!"id", number := 1, label := 1, type := 5, jsonName := b!"id" }] [] [] [] [] false none]
    extensions := [
      { name := b!"tag", number := 100, label := 1, type := 5, jsonName := b!"tag", extendee := b!".q.M" },
      { name := b!"note", number := 101, label := 1, type := 9, jsonName := b!"note", extendee := b!".q.M" },
      { name := b!"list", number := 102, label := 3, type := 17, packed := some true, jsonName := b!"list", extendee := b!".q.M" },
      { name := b!"kind", number := 103, label := 1, type := 14, typeName := b!".q.K", jsonName := b!"kind", extendee := b!".q.M" },
      { name := b!"sub", number := 104, label := 1, type := 11, typeName := b!".q.M", jsonName := b!"sub", extendee := b!".q.M" }] }

/-- Only `q.M` has extension ranges. -/
def extSetup : Setup := { ranged := fun m => m = b!"q.M" }

/-- The default of `tag` is 7, that of `note` is `"a"`. -/
def extDflt (f : FieldProto) : Option Val :=
  if f.number = 100 then some (.num 7) else if f.number = 101 then some (.bytes b!"a") else none

/-- As `extDflt`, but the default of `note` is `"a\0b"`. -/
def zeroDflt (f : FieldProto) : Option Val :=
  if f.number = 101 then some (.bytes [97, 0, 98]) else none

/-- An object of `q.M` as constructed. -/
def extFresh : Nat → Msg
  | 0 => ⟨[[]], []⟩
  | _ => ⟨[], []⟩

def flatVal : Val → Val → Bool
  | .num a, .num b => a == b
  | .bytes a, .bytes b => a == b
  | _, _ => false

theorem flatVal_eq {a b : Val} (h : flatVal a b = true) : a = b := by
  unfold flatVal at h
  split at h
  · rw [eq_of_beq h]
  · rw [eq_of_beq h]
  · cases h

def flatList : List (Nat × Val) → List (Nat × Val) → Bool
  | [], [] => true
  | a :: l, b :: m => a.1 == b.1 && flatVal a.2 b.2 && flatList l m
  | _, _ => false

theorem flatList_eq : ∀ {a b : List (Nat × Val)}, flatList a b = true → a = b
  | [], [], _ => rfl
  | (i, v) :: l, (j, w) :: m, h => by
    simp only [flatList, Bool.and_eq_true, beq_iff_eq] at h
    rw [h.1.1, flatVal_eq h.1.2, flatList_eq h.2]
  | [], _ :: _, h => by cases h
  | _ :: _, [], h => by cases h

def flatSlots : List (List (Nat × Val)) → List (List (Nat × Val)) → Bool
  | [], [] => true
  | a :: l, b :: m => flatList a b && flatSlots l m
  | _, _ => false

theorem flatSlots_eq : ∀ {a b : List (List (Nat × Val))}, flatSlots a b = true → a = b
  | [], [], _ => rfl
  | a :: l, b :: m, h => by
    simp only [flatSlots, Bool.and_eq_true] at h
    rw [flatList_eq h.1, flatSlots_eq h.2]
  | [], _ :: _, h => by cases h
  | _ :: _, [], h => by cases h

/-- The result is this message without messages inside. -/
def gives (r : Res Msg) (m : Msg) : Bool := match r with
  | .ok x => flatSlots x.slots m.slots && x.unk == m.unk
  | _ => false

theorem gives_eq {r : Res Msg} {m : Msg} (h : gives r m = true) : r = .ok m := by
  unfold gives at h
  split at h
  · next x =>
    obtain ⟨xs, xu⟩ := x
    obtain ⟨ms, mu⟩ := m
    simp only [Bool.and_eq_true, beq_iff_eq] at h
    rw [flatSlots_eq h.1, h.2]
  · cases h

def givesSet (r : Res (Option Err × Msg)) (m : Msg) : Bool := match r with
  | .ok (none, x) => gives (.ok x) m
  | _ => false

theorem givesSet_eq {r : Res (Option Err × Msg)} {m : Msg} (h : givesSet r m = true) : r = .ok (none, m) := by
  unfold givesSet at h
  split at h
  · next x => have := gives_eq h; cases this; rfl
  · cases h

/-- What is computed for the file. -/
def extFileTest (p : Pool) : Bool :=
  acceptedTest p &&
  decide (∀ d ∈ p.messages, ∀ f ∈ d.proto.fields, f.number < 2 ^ 25 ∧ f.type = 5 ∧ f.oneofIndex = none) &&
  decide (∀ f ∈ p.fields, f.proto.extendee ≠ [] → f.proto.oneofIndex = none ∧ (¬ (f.proto.label = 2 ∨ f.features.presence = 3)) ∧
    f.proto.number < 2 ^ 25 ∧ (f.proto.number = 100 → f.proto.type = 5) ∧ (f.proto.number = 101 → f.proto.type = 9)) &&
  decide (∀ d ∈ p.messages, d.fullName = b!"q.M" ∧ d.proto.mapEntry = false ∧ ∀ g ∈ d.proto.fields, ∀ f ∈ p.fields, f.proto.extendee ≠ [] →
    g.number ≠ f.proto.number) &&
  decide (∀ e ∈ p.enums, e.proto.numbers ≠ []) &&
  decide (p.fields.map (·.proto.number) = [1, 100, 101, 102, 103, 104]) &&
  decide (∀ f ∈ p.fields, f.proto.number ≠ 1 → f.proto.extendee = b!".q.M") &&
  p.messages.all (fun d => sameEntries (entries extSetup p d) [.field 1 .optional (.i32, .vi64) { presence := true } none]) &&
  decide (p.messages.length = 1) &&
  givesSet (extSet (library extSetup extDflt p extFresh (fun _ => true) true) 9 true (extId p 1) 100
    ⟨[[(0, .num 9)]], []⟩ ⟨[[(0, .num 5)]], []⟩) ⟨[[(0, .num 9)]], [(100, [160, 6, 5])]⟩ &&
  givesSet (extSet (library extSetup extDflt p extFresh (fun _ => true) true) 9 true (extId p 1) 100
    ⟨[[(0, .num 9)]], [(100, [160, 6, 5])]⟩ ⟨[[(0, .num 7)]], []⟩) ⟨[[(0, .num 9)]], [(100, [160, 6, 5])]⟩ &&
  gives (extGet (library extSetup extDflt p extFresh (fun _ => true) false) 9 true (extId p 1) 100
    ⟨[[(0, .num 9)]], [(100, [160, 6, 5])]⟩ ⟨[[(0, .num 0)]], []⟩) ⟨[[(0, .num 5)]], []⟩ &&
  gives (.ok ((library extSetup zeroDflt p extFresh (fun _ => true) false).schema (extId p 2)).default) ⟨[[(0, .bytes [97])]], []⟩ &&
  givesSet (extSet (library extSetup zeroDflt p extFresh (fun _ => true) true) 9 true (extId p 2) 101
    ⟨[[]], []⟩ ⟨[[(0, .bytes [97, 0, 98])]], []⟩) ⟨[[]], []⟩

/-- C123: the file meets the hypotheses of the theorems above. -/
theorem extFile_ok : ∃ p, initPool id [extFile] = .ok p ∧ Accepted p ∧ DefaultsGiven extSetup p ∧ Supported extSetup p ∧
    ExtAccepted p ∧ ExtSupported extDflt p ∧ DefaultsTyped extSetup p (fun _ => true) ∧ ExtDefaultsTyped extDflt p (fun _ => true) ∧
    Fresh extSetup p (fun _ => true) extFresh ∧ p.fields.map (·.proto.number) = [1, 100, 101, 102, 103, 104] ∧
    (∀ f ∈ p.fields, f.proto.number ≠ 1 → f.proto.extendee = b!".q.M") ∧ extFileTest p = true := by
  have h : poolWith [extFile] extFileTest = true := by decide +kernel
  obtain ⟨p, hp, ht⟩ := poolWith_spec h
  have ht' := ht
  simp only [extFileTest, Bool.and_eq_true, decide_eq_true_eq, List.all_eq_true] at ht
  obtain ⟨⟨⟨⟨⟨⟨⟨⟨⟨⟨⟨⟨⟨t1, t2⟩, t3⟩, t4⟩, t5⟩, t6⟩, t7⟩, t8⟩, t9⟩, -⟩, -⟩, -⟩, -⟩, -⟩ := ht
  refine ⟨p, hp, accepted_of_test t1, ?_, ⟨?_, ?_, ?_, ?_, ?_⟩, ⟨?_, ?_, ?_, ?_, ?_, ?_⟩, ⟨?_, ?_⟩, ?_, ?_, ?_, t6, t7, ht'⟩
  · intro d hd f hf hs; cases hs
  · exact fun d hd f hf => (t2 d hd f hf).1
  · intro d hd f hf hm
    have := (t2 d hd f hf).2.1
    have := hm.1
    omega
  · intro d hd f hf g _ _ ho
    rw [(t2 d hd f hf).2.2] at ho
    cases ho
  · exact fun d _ f _ _ _ _ _ => ⟨b!".", by simp [extSetup], ⟨_, rfl⟩⟩
  · intro hk; cases hk
  · exact fun f hf he => (t3 f hf he).1
  · exact fun f hf he => (t3 f hf he).2.1
  · exact fun f hf he _ m hm _ => (t4 m hm).2.1
  · exact fun f hf he d hd _ g hg => (t4 d hd).2.2 g hg f hf he
  · exact fun f hf he d hd _ => (t4 d hd).2.1
  · exact t5
  · exact fun f hf he => (t3 f hf he).2.2.1
  · intro f hf he h9 s hs h0
    unfold extDflt at hs
    split at hs
    · cases hs
    · split at hs
      · cases hs; simp at h0
      · cases hs
  · intro d hd f hf v hv; cases hv
  · intro f hf he v hv
    obtain ⟨_, _, _, h100, h101⟩ := t3 f hf he
    unfold extDflt at hv
    split at hv
    · next hn =>
      have t5 := h100 hn
      cases hv
      refine ⟨by omega, by omega, fun sc hsc => ?_⟩
      rcases hsc with hsc | ⟨h14, _⟩
      · cases sc with
        | str u => simp only [scalarRule] at hsc; omega
        | varint ty => cases ty <;> simp only [scalarRule] at hsc <;> first | omega | exact ⟨7, rfl, by unfold inRange; decide⟩
        | bool => simp only [scalarRule] at hsc; omega
        | enum c => exact hsc.elim
        | fixed32 _ => simp only [scalarRule] at hsc; omega
        | fixed64 _ => simp only [scalarRule] at hsc; omega
      · omega
    · split at hv
      · next hn =>
        have t9 := h101 hn
        cases hv
        refine ⟨by omega, by omega, fun sc hsc => ?_⟩
        rcases hsc with hsc | ⟨h14, _⟩
        · cases sc with
          | str u => exact ⟨_, rfl, fun _ => rfl⟩
          | varint ty => cases ty <;> simp only [scalarRule] at hsc <;> omega
          | bool => simp only [scalarRule] at hsc; omega
          | enum c => exact hsc.elim
          | fixed32 _ => simp only [scalarRule] at hsc; omega
          | fixed64 _ => simp only [scalarRule] at hsc; omega
        · omega
      · cases hv
  · obtain ⟨d, hd⟩ := List.length_eq_one_iff.1 t9
    have hdm : d ∈ p.messages := by rw [hd]; simp
    intro id
    have hu : unknownMode extSetup p d false = .ext := by
      unfold unknownMode
      rw [if_pos]
      rw [(t4 d hdm).1]
      rfl
    rw [classes_single hd (t4 d hdm).2.1 (t8 d hdm) hu]
    match id with
    | 0 => rfl
    | _ + 1 => rfl

/-- C123: so do the message with `id` 9 and the value 5 of the extension `tag`; setting it succeeds, and gives bytes. -/
theorem extFile_set : ∃ p f, initPool id [extFile] = .ok p ∧ p.fields[1]? = some f ∧ f.proto.number = 100 ∧
    f.proto.extendee = b!".q.M" ∧ f.proto.label = 1 ∧
    (∀ w, (library extSetup extDflt p extFresh (fun _ => true) w).schema (extId p 1) =
      { slots := [.field 100 (.scalar (.varint .i32)) (.implicit (.num 7))], unk := .none }) ∧
    (∀ w, (library extSetup extDflt p extFresh (fun _ => true) w).schema 0 =
      { slots := [.field 1 (.scalar (.varint .i32)) .optional], unk := .ext }) ∧
    objLike false (library extSetup extDflt p extFresh (fun _ => true) true) 10 0 ⟨[[(0, .num 9)]], []⟩ ∧
    objLike false (library extSetup extDflt p extFresh (fun _ => true) true) 10 (extId p 1) ⟨[[(0, .num 5)]], []⟩ ∧
    wire (library extSetup extDflt p extFresh (fun _ => true) true) 9 (extId p 1) ⟨[[(0, .num 5)]], []⟩ = [160, 6, 5] ∧
    extSet (library extSetup extDflt p extFresh (fun _ => true) true) 9 true (extId p 1) 100
      ⟨[[(0, .num 9)]], []⟩ ⟨[[(0, .num 5)]], []⟩ = .ok (none, ⟨[[(0, .num 9)]], [(100, [160, 6, 5])]⟩) ∧
    ExtDefaultRule p (extDflt f.proto) f.proto (.num 7) ∧ ¬ closedEnum p f.proto := by
  obtain ⟨p, hp, _, _, _, _, _, _, _, _, hn, hx, ht⟩ := extFile_ok
  simp only [extFileTest, Bool.and_eq_true] at ht
  have hset := givesSet_eq ht.1.1.1.1.2
  have h9 := of_decide_eq_true ht.1.1.1.1.1.2
  have h8 := List.all_eq_true.1 ht.1.1.1.1.1.1.2
  have h4 := of_decide_eq_true ht.1.1.1.1.1.1.1.1.1.1.2
  have h3 : poolWith [extFile] (fun p => match p.fields[1]? with
      | some f => decide (f.proto.number = 100 ∧ f.proto.label = 1 ∧ f.proto.type = 5 ∧ f.extendee.isSome ∧ f.proto.extendee = b!".q.M" ∧
          extKind p f = .scalar (.varint .i32) ∧ (extOptions p f).presence = false)
      | none => false) = true := by decide +kernel
  obtain ⟨q, hq, hq'⟩ := poolWith_spec h3
  rw [hp] at hq
  cases hq
  split at hq'
  · next f hf =>
    obtain ⟨u1, u2, u3, u4, u5, u6, u7⟩ := of_decide_eq_true hq'
    have hd7 : extDflt f.proto = some (.num 7) := if_pos u1
    have hsch : ∀ w, (library extSetup extDflt p extFresh (fun _ => true) w).schema (extId p 1) =
        { slots := [.field 100 (.scalar (.varint .i32)) (.implicit (.num 7))], unk := .none } := by
      intro w
      rw [library_ext extSetup extDflt extFresh (fun _ => true) w hf u4, u1, u6, u7]
      simp [u2, u3, extDefault, extInit, hd7]
    have hcls : ∀ w, (library extSetup extDflt p extFresh (fun _ => true) w).schema 0 =
        { slots := [.field 1 (.scalar (.varint .i32)) .optional], unk := .ext } := by
      intro w
      obtain ⟨d, hd⟩ := List.length_eq_one_iff.1 h9
      have hdm : d ∈ p.messages := by rw [hd]; simp
      have hu : unknownMode extSetup p d w = .ext := by
        unfold unknownMode
        rw [if_pos]
        rw [(h4 d hdm).1]
        rfl
      rw [library_class _ _ _ _ _ (by omega), classes_single hd (h4 d hdm).2.1 (h8 d hdm) hu]
      rfl
    refine ⟨p, f, hp, hf, u1, u5, u2, hsch, hcls, ?_, ?_, ?_, hset, ?_, ?_⟩
    · refine ⟨by rw [hcls]; rfl, ?_, by rw [hcls]; exact ⟨.nil, by simp⟩⟩
      rw [hcls]
      intro x hx
      cases List.mem_singleton.1 hx
      simp [slotOk, valOk, scalarOk, inRange]
    · refine ⟨by rw [hsch]; rfl, ?_, by rw [hsch]; rfl⟩
      rw [hsch]
      intro x hx
      cases List.mem_singleton.1 hx
      simp [slotOk, valOk, scalarOk, inRange]
    · unfold wire
      rw [Spec.encode, hsch]
      with_unfolding_all rfl
    · unfold ExtDefaultRule
      rw [hd7]
    · rintro ⟨h14, _⟩
      omega
  · cases hq'

/-- Where C123 fails.  The extension `tag` of `q.M` has presence and the default 7.  Setting it to 5, and then to 7,
succeeds; getting it then gives 5. -/
theorem C123_default_lost : ∃ p f, initPool id [extFile] = .ok p ∧ p.fields[1]? = some f ∧ hasPresence True f.proto f.features ∧
    f.proto.extendee = b!".q.M" ∧ ∃ m,
      extSet (library extSetup extDflt p extFresh (fun _ => true) true) 9 true (extId p 1) 100
        ⟨[[(0, .num 9)]], []⟩ ⟨[[(0, .num 5)]], []⟩ = .ok (none, m) ∧
      extSet (library extSetup extDflt p extFresh (fun _ => true) true) 9 true (extId p 1) 100
        m ⟨[[(0, .num 7)]], []⟩ = .ok (none, m) ∧
      extGet (library extSetup extDflt p extFresh (fun _ => true) false) 9 true (extId p 1) 100
        m ⟨[[(0, .num 0)]], []⟩ = .ok ⟨[[(0, .num 5)]], []⟩ := by
  obtain ⟨p, hp, _, _, _, _, _, _, _, _, hn, hx, ht⟩ := extFile_ok
  have ht3 : ∀ f ∈ p.fields, f.proto.extendee ≠ [] → f.proto.number = 100 → f.proto.type = 5 := by
    simp only [extFileTest, Bool.and_eq_true, decide_eq_true_eq] at ht
    exact fun f hf he => (ht.1.1.1.1.1.1.1.1.1.1.1.2 f hf he).2.2.2.1
  simp only [extFileTest, Bool.and_eq_true] at ht
  have hj : ∃ f, p.fields[1]? = some f ∧ f.proto.number = 100 := by
    have : (p.fields.map (·.proto.number))[1]? = some 100 := by rw [hn]; rfl
    rw [List.getElem?_map, Option.map_eq_some_iff] at this
    exact this
  obtain ⟨f, hf, hfn⟩ := hj
  have hfm := List.mem_of_getElem? hf
  have he := hx f hfm (by omega)
  have hl : f.proto.label ≠ 3 := by
    have h3 : poolWith [extFile] (fun p => p.fields.all fun f => f.proto.number ≠ 100 || f.proto.label ≠ 3) = true := by decide +kernel
    obtain ⟨q, hq, hq'⟩ := poolWith_spec h3
    rw [hp] at hq
    cases hq
    simpa [hfn] using List.all_eq_true.1 hq' f hfm
  exact ⟨p, f, hp, hf, ⟨hl, .inr (.inr (.inl trivial))⟩, he, _, givesSet_eq ht.1.1.1.1.2, givesSet_eq ht.1.1.1.2, gives_eq ht.1.1.2⟩

/-- Where C123 fails.  The default of the string `note` is `"a\0b"`.  A new extension object holds `"a"`; one that
holds the default is not written. -/
theorem C123_string_default : ∃ p f, initPool id [extFile] = .ok p ∧ p.fields[2]? = some f ∧
    ExtDefaultRule p (zeroDflt f.proto) f.proto (.bytes [97, 0, 98]) ∧
    ((library extSetup zeroDflt p extFresh (fun _ => true) false).schema (extId p 2)).default = ⟨[[(0, .bytes [97])]], []⟩ ∧
    extSet (library extSetup zeroDflt p extFresh (fun _ => true) true) 9 true (extId p 2) 101
      ⟨[[]], []⟩ ⟨[[(0, .bytes [97, 0, 98])]], []⟩ = .ok (none, ⟨[[]], []⟩) := by
  obtain ⟨p, hp, _, _, _, _, _, _, _, _, hn, hx, ht⟩ := extFile_ok
  simp only [extFileTest, Bool.and_eq_true] at ht
  have hj : ∃ f, p.fields[2]? = some f ∧ f.proto.number = 101 := by
    have : (p.fields.map (·.proto.number))[2]? = some 101 := by rw [hn]; rfl
    rw [List.getElem?_map, Option.map_eq_some_iff] at this
    exact this
  obtain ⟨f, hf, hfn⟩ := hj
  refine ⟨p, f, hp, hf, ?_, ?_, givesSet_eq ht.2⟩
  · unfold ExtDefaultRule zeroDflt
    rw [if_pos hfn]
  · have := gives_eq ht.1.2
    injection this

end HppProto.Props
