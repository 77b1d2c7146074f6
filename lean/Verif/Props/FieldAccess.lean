import Verif.Proofs.FieldAccess

/-!
# C135–C138: typed access to fields of dynamic messages by name or number

`setBy` is `set_field_by_name` or `set_field_by_number`, `getBy` is `field_value_by_name<T>` or
`field_value_by_number<T>`, `chain` a chain of calls on an `expected_message_mref`.
`Verif/Spec/FieldAccess.lean` says which fields take which arguments and what they mean.
-/

namespace HppProto.Props

open Access Access.Spec

/-! ## C135: setting a field -/

/-- A call that names no field fails and leaves the message alone. A call with an argument of another
type than that of the field fails likewise. Otherwise the field reads as the argument, its oneof
siblings are absent and every other field is kept; an enum name that the enum does not have is an error. -/
theorem C135_set_partial (T : DynTypes) (depth : Nat) {D : NDesc} (hD : DescOk D) {m : DynMsg}
    (hm : m.length = D.slots) (r : Ref) (a : Arg) :
    ((∀ f ∈ D.fields, ¬ Names r f) → setBy T depth D r a m = .fail .noSuchField m) ∧
    ∀ f, Finds D r f → ¬ Odd f a →
      (¬ Takes f a → setBy T depth D r a m = .fail .invalidFieldType m) ∧
      (Takes f a → isPlain a = true →
        (∀ v, meaning f.values a = some v → ∃ m', setBy T depth D r a m = .ok m' ∧
          f.field.hasValue m' = presentAs v ∧ f.field.value m' = v ∧
          OthersFollow D.desc f.field m m') ∧
        (meaning f.values a = none → ∃ m', setBy T depth D r a m = .fail .invalidEnumName m')) := by
  refine ⟨fun h => by unfold setBy; rw [find_none h], fun f hf hodd => ⟨fun ht => ?_, fun ht hp => ?_⟩⟩
  · unfold setBy
    rw [find_some hf]
    show setField T depth f a m = _
    unfold setField
    rw [if_neg (fun h => ht ((settable_iff f a hodd).1 h))]
  · have hset : setBy T depth D r a m = setField T depth f a m := by
      unfold setBy; rw [find_some hf]
    have hmem : f.field ∈ D.desc.fields := List.mem_map.2 ⟨f, hf.mem, rfl⟩
    have hk := hD.kinds f hf.mem
    rw [hset]
    unfold setField
    rw [if_pos ((settable_iff f a hodd).2 ht)]
    obtain ⟨h1, h2⟩ := ht
    have follow := @follow_of_kept _ hD.ok _ hmem
    have many : ∀ vs : List (BitVec 64), f.field.repeated = true → f.field.kind.isNum = true →
        f.field.hasValue (f.field.setNums vs m) = presentAs (.nums (vs.map some)) ∧
        f.field.value (f.field.setNums vs m) = .nums (vs.map some) ∧
        OthersFollow D.desc f.field m (f.field.setNums vs m) := by
      intro vs hr hn
      obtain ⟨e1, e2, e3⟩ := C60_set_numbers hD.ok hm hmem hr hn vs
      exact ⟨by rw [e1]; cases vs <;> rfl, e2, follow hr e3⟩
    have strings : ∀ vs : List (List Byte), f.field.repeated = true → f.field.kind.isStr = true →
        f.field.hasValue (f.field.setStrs vs m) = presentAs (.strs vs) ∧
        f.field.value (f.field.setStrs vs m) = .strs vs ∧
        OthersFollow D.desc f.field m (f.field.setStrs vs m) := by
      intro vs hr hn
      obtain ⟨e1, e2, e3⟩ := C60_set_strings hD.ok hm hmem hr hn vs
      exact ⟨by rw [e1]; cases vs <;> rfl, e2, follow hr e3⟩
    cases a with
    | num t v =>
      refine ⟨fun w hw => ?_, fun h => by cases h⟩
      cases hw
      exact ⟨_, rfl, C60_set_number hD.ok hm hmem h2 (kind_num h1 hk) v⟩
    | chars bs =>
      refine ⟨fun w hw => ?_, fun h => by cases h⟩
      cases hw
      exact ⟨_, rfl, C60_set_string hD.ok hm hmem h2
        (kind_str (Or.inl (List.mem_singleton.1 h1)) hk) bs⟩
    | bytes bs =>
      refine ⟨fun w hw => ?_, fun h => by cases h⟩
      cases hw
      exact ⟨_, rfl, C60_set_string hD.ok hm hmem h2
        (kind_str (Or.inr (List.mem_singleton.1 h1)) hk) bs⟩
    | enumNumber v =>
      refine ⟨fun w hw => ?_, fun h => by cases h⟩
      cases hw
      rw [List.mem_singleton.1 h1] at hk
      exact ⟨_, rfl, C60_set_number hD.ok hm hmem h2 (kind_enum hk) v⟩
    | enumName s =>
      have he := List.mem_singleton.1 h1
      rw [he] at hk
      have hne : ¬ f.fkind = .string := by rw [he]; decide
      dsimp only
      rw [if_neg hne, valueOf_eq]
      show (∀ v, (f.values.lookup s).map Reading.num = some v → _) ∧
        ((f.values.lookup s).map Reading.num = none → _)
      cases e : f.values.lookup s with
      | none => exact ⟨fun w hw => (by cases hw), fun _ => ⟨m, rfl⟩⟩
      | some v =>
        refine ⟨fun w hw => ?_, fun h => by cases h⟩
        cases hw
        exact ⟨_, rfl, C60_set_number hD.ok hm hmem h2 (kind_enum hk) v⟩
    | msg id v => cases hp
    | nums t vs =>
      refine ⟨fun w hw => ?_, fun h => by cases h⟩
      cases hw
      exact ⟨_, rfl, many vs h2 (kind_num h1 hk)⟩
    | strs vs =>
      refine ⟨fun w hw => ?_, fun h => by cases h⟩
      cases hw
      exact ⟨_, rfl, strings vs h2 (kind_str (Or.inl (List.mem_singleton.1 h1)) hk)⟩
    | byteStrs vs =>
      refine ⟨fun w hw => ?_, fun h => by cases h⟩
      cases hw
      exact ⟨_, rfl, strings vs h2 (kind_str (Or.inr (List.mem_singleton.1 h1)) hk)⟩
    | enumNumbers vs =>
      refine ⟨fun w hw => ?_, fun h => by cases h⟩
      cases hw
      rw [List.mem_singleton.1 h1] at hk
      exact ⟨_, rfl, many vs h2 (kind_enum hk)⟩
    | enumNames ss =>
      rw [List.mem_singleton.1 h1] at hk
      dsimp only
      show (∀ v, (ss.mapM (fun s => f.values.lookup s)).map (fun vs => Reading.nums (vs.map some)) = some v → _) ∧
        ((ss.mapM (fun s => f.values.lookup s)).map (fun vs => Reading.nums (vs.map some)) = none → _)
      cases e : ss.mapM (fun s => f.values.lookup s) with
      | none =>
        refine ⟨fun w hw => (by cases hw), fun _ => ?_⟩
        rw [namesLoop_fail _ _ e]
        exact ⟨_, rfl⟩
      | some vs =>
        refine ⟨fun w hw => ?_, fun h => by cases h⟩
        cases hw
        rw [namesLoop_ok _ _ _ e]
        exact ⟨_, rfl, many vs h2 (kind_enum hk)⟩
    | enumSpan vs => exact absurd (Or.inr ⟨vs, rfl⟩) hodd
    | msgs vs => cases hp

/-- Setting a singular message field: a message of another type is an error; otherwise the field holds
a copy of the message (in the sense of C62), provided no oneof has several members. -/
theorem C135_message_partial {T : DynTypes} (hT : ∀ id, (T id).Ok)
    (single : ∀ id, ∀ f ∈ (T id).fields, ∀ g ∈ (T id).fields, SameOneof f g → f = g)
    {grow : Prop} {id : Nat} {D : NDesc} (hD : DescOk D) (hfields : (T id).fields = D.desc.fields)
    (hslots : (T id).slots = D.slots) {m : DynMsg} (hm : DynReach T grow id m) {r : Ref} {f : NField}
    (hf : Finds D r f) (hk : f.fkind = .message) (hr : f.field.repeated = false)
    {vid : Nat} {v : DynMsg} (hv : DynReach T grow vid v) :
    (f.field.kind.msgType ≠ some vid →
      ∀ d, setBy T d D r (.msg vid v) m = .fail .wrongMessageType m) ∧
    (f.field.kind.msgType = some vid →
      ∃ d m' s, (∀ d', d ≤ d' → setBy T d' D r (.msg vid v) m = .ok m') ∧
        f.field.hasValue m' = true ∧ f.field.value m' = .msg s ∧ SameValues T vid s v ∧
        OthersFollow D.desc f.field m m') := by
  have hmem : f.field ∈ D.desc.fields := List.mem_map.2 ⟨f, hf.mem, rfl⟩
  have hset : ∀ d, setBy T d D r (.msg vid v) m =
      if f.field.kind.msgType = some vid then
        match f.field.setMsg T d v m with
        | some m' => Out.ok m'
        | none => .undefined
      else .fail .wrongMessageType m := by
    intro d
    unfold setBy
    rw [find_some hf]
    show setField T d f _ m = _
    unfold setField settable
    rw [hr, hk]
    rfl
  refine ⟨fun hne d => by rw [hset, if_neg hne], fun he => ?_⟩
  have hw := hm.wf hT
  obtain ⟨d, s, h1, h2⟩ := setMsg_same hT single hw (hfields ▸ hmem) hr he (hv.wf hT)
  have hlen : m.length = D.desc.slots := hw.len.trans hslots
  have hst := storage_store_self (m := m) (by rw [hlen]; exact hD.ok.slot_lt hmem)
    (f.field.layout.ordinal, Cell.msg s)
  have hv : f.field.hasValue (f.field.store m (f.field.layout.ordinal, .msg s)) = true := by
    simp [DynField.hasValue, hst, slotHasValue, hr]
  obtain ⟨hn, hs⟩ := msgType_plain he
  refine ⟨d, _, s, fun d' hd' => by rw [hset, if_pos he, h1 d' hd'], hv, ?_, h2,
    othersFollow_store hD.ok hmem hlen _⟩
  simp [DynField.value, DynField.msgValue, hr, hn, hs, hv]
  simp [hst]

/-- Setting a repeated message field to a list of messages of its type: the field then has as many
elements, each a copy of the one given. -/
theorem C135_messages_partial {T : DynTypes} (hT : ∀ id, (T id).Ok)
    (single : ∀ id, ∀ f ∈ (T id).fields, ∀ g ∈ (T id).fields, SameOneof f g → f = g)
    {grow : Prop} {id : Nat} {D : NDesc} (hD : DescOk D) (hfields : (T id).fields = D.desc.fields)
    (hslots : (T id).slots = D.slots) {m : DynMsg} (hm : DynReach T grow id m) {r : Ref} {f : NField}
    (hf : Finds D r f) (hk : f.fkind = .message) (hr : f.field.repeated = true)
    {vid : Nat} (htype : f.field.kind.msgType = some vid)
    {vs : List DynMsg} (hv : ∀ v ∈ vs, DynReach T grow vid v) :
    ∃ d m' ss, (∀ d', d ≤ d' → setBy T d' D r (.msgs (vs.map fun v => (vid, v))) m = .ok m') ∧
      f.field.value m' = .msgs ss ∧ ss.length = vs.length ∧
      (∀ (i : Nat) s v, ss[i]? = some s → vs[i]? = some v → SameValues T vid s v) ∧
      OthersFollow D.desc f.field m m' := by
  have hmem : f.field ∈ D.desc.fields := List.mem_map.2 ⟨f, hf.mem, rfl⟩
  have hmem' : f.field ∈ (T id).fields := hfields ▸ hmem
  have hw := hm.wf hT
  have hone := hD.ok.singularMembers _ hmem hr
  have hold : ∀ o ∈ msgElems (f.field.storage m), DynWF T grow vid o := by
    intro o ho
    unfold msgElems at ho
    split at ho
    · rename_i ws e
      exact hw.subs _ hmem' (Or.inl hone) vid htype ws e o (List.mem_of_mem_take ho)
    · cases ho
  obtain ⟨d, ss, h1, h2, h3⟩ := msgsLoop_same hT single
    (resizeWith (T vid).empty vs.length (msgElems (f.field.storage m))) vs (resizeWith_length ..) (by
      intro o ho
      unfold resizeWith at ho
      rcases List.mem_append.1 ho with h | h
      · exact hold o (List.mem_of_mem_take h)
      · rw [List.eq_of_mem_replicate h]
        exact DynWF.empty hT vid) (fun v h => (hv v h).wf hT)
  have hlen : m.length = D.desc.slots := hw.len.trans hslots
  have hst := storage_store_self (m := m) (by rw [hlen]; exact hD.ok.slot_lt hmem)
    (ss.length, Cell.msgs ss)
  refine ⟨d, f.field.store m (ss.length, .msgs ss), ss, fun d' hd' => ?_,
    (value_msgs hr htype hst).1, h2, h3,
    follow_of_kept hD.ok hmem hr (othersKept_store hD.ok hmem hone m _)⟩
  unfold setBy
  rw [find_some hf]
  show setField T d' f _ m = _
  unfold setField settable
  rw [hr, hk]
  show setMsgs T d' f.field (vs.map fun v => (vid, v)) m = _
  unfold setMsgs
  rw [htype]
  dsimp only
  rw [List.length_map, h1 d' hd']
  dsimp only
  rw [if_pos rfl, h2]

/-! ## C136: failures and chains -/

/-- A failed call leaves the message as it was, unless a list of enum names or of messages was given. -/
theorem C136_failed_partial (T : DynTypes) (depth : Nat) (D : NDesc) (r : Ref) (a : Arg) (m m' : DynMsg)
    (e : Errc) (names : ∀ ss, a ≠ .enumNames ss) (msgs : ∀ vs, a ≠ .msgs vs)
    (h : setBy T depth D r a m = .fail e m') : m' = m := by
  unfold setBy at h
  split at h
  · unfold setField at h
    split at h
    · cases a with
      | enumName s =>
        dsimp only at h
        split at h
        · cases h
        · split at h <;> cases h
          rfl
      | msg id v =>
        dsimp only at h
        split at h
        · split at h <;> cases h
        · cases h; rfl
      | enumNames ss => exact absurd rfl (names ss)
      | msgs vs => exact absurd rfl (msgs vs)
      | _ => cases h
    · cases h; rfl
  · cases h; rfl

/-- A list of enum names with an unknown one: the field is left with the numbers of the names before it. -/
theorem C136_names_prefix (T : DynTypes) (depth : Nat) {D : NDesc} (hD : DescOk D) {m : DynMsg}
    (hm : m.length = D.slots) {r : Ref} {f : NField} (hf : Finds D r f) (hk : f.fkind = .enum)
    (hr : f.field.repeated = true) {pre post : List (List Byte)} {bad : List Byte} {vs : List (BitVec 64)}
    (known : pre.mapM (fun s => f.values.lookup s) = some vs) (unknown : f.values.lookup bad = none) :
    ∃ m', setBy T depth D r (.enumNames (pre ++ bad :: post)) m = .fail .invalidEnumName m' ∧
      f.field.value m' = .nums (vs.map some) := by
  have loop : ∀ (pre : List (List Byte)) (vs : List (BitVec 64)),
      pre.mapM (fun s => f.values.lookup s) = some vs →
      namesLoop f.values (pre ++ bad :: post) = (vs, false) := by
    intro pre
    induction pre with
    | nil =>
      intro vs h
      cases h
      show namesLoop f.values (bad :: post) = _
      unfold namesLoop
      rw [valueOf_eq, unknown]
      rfl
    | cons s ss ih =>
      intro vs h
      rw [List.mapM_cons] at h
      cases e : f.values.lookup s with
      | none => rw [e] at h; cases h
      | some v =>
        cases e' : ss.mapM (fun s => f.values.lookup s) with
        | none => rw [e, e'] at h; cases h
        | some ws =>
          rw [e, e'] at h
          cases h
          show namesLoop f.values (s :: (ss ++ bad :: post)) = _
          unfold namesLoop
          rw [valueOf_eq, e, ih ws e']
  have hmem : f.field ∈ D.desc.fields := List.mem_map.2 ⟨f, hf.mem, rfl⟩
  have hkf := hD.kinds f hf.mem
  rw [hk] at hkf
  refine ⟨f.field.setNums vs m, ?_, (C60_set_numbers hD.ok hm hmem hr (kind_enum hkf) vs).2.1⟩
  unfold setBy
  rw [find_some hf]
  show setField T depth f _ m = _
  unfold setField settable
  rw [hr, hk]
  show (if (namesLoop f.values (pre ++ bad :: post)).2 = true then _ else _) = _
  rw [loop pre vs known]
  rfl

/-- A chain of calls does them in order up to the first that fails, and reports that failure. -/
theorem C136_chain (T : DynTypes) (depth : Nat) (D : NDesc) (cs : List Call) (m : DynMsg) :
    Follows (Call.run T depth D) cs m (chain T depth D cs m) :=
  chain_follows T depth D cs m

/-- `modify_field_by_name` and `modify_field_by_number` hand the function the field that is named, if it is of the kind that the function takes,
and give what the function gives; otherwise they fail and leave the message as it was. -/
theorem C136_modify (T : DynTypes) (depth : Nat) (D : NDesc) (r : Ref) (k : FKind) (repeated : Bool) (g : NField → DynMsg → Out)
    (m : DynMsg) :
    ((∀ f ∈ D.fields, ¬ Names r f) → Call.run T depth D (.modify r k repeated g) m = .fail .noSuchField m) ∧
    ∀ f, Finds D r f →
      (f.fkind = k → f.field.repeated = repeated → Call.run T depth D (.modify r k repeated g) m = g f m) ∧
      (¬ (f.fkind = k ∧ f.field.repeated = repeated) → Call.run T depth D (.modify r k repeated g) m = .fail .invalidFieldType m) := by
  refine ⟨fun h => ?_, fun f hf => ⟨fun h1 h2 => ?_, fun h => ?_⟩⟩
  · show modifyBy D r k repeated g m = _
    unfold modifyBy; rw [find_none h]
  · show modifyBy D r k repeated g m = _
    unfold modifyBy; rw [find_some hf]; exact if_pos ⟨h1, h2⟩
  · show modifyBy D r k repeated g m = _
    unfold modifyBy; rw [find_some hf]; exact if_neg h

/-! ## C137: reading a field -/

/-- A call that names no field, or asks for another type than that of the field, fails. Otherwise it
answers from what the field holds, except for lists of strings, byte strings and messages. -/
theorem C137_get_partial {D : NDesc} (hD : DescOk D) (m : DynMsg) (r : Ref) (w : Want) :
    ((∀ f ∈ D.fields, ¬ Names r f) → getBy D r w m = .fail .noSuchField) ∧
    ∀ f, Finds D r f →
      (¬ Gives f w → getBy D r w m = .fail .invalidFieldType) ∧
      (Gives f w → w ≠ .strs → w ≠ .byteStrs → w ≠ .msgs →
        getBy D r w m = answer f.values w (f.field.value m)) := by
  refine ⟨fun h => by unfold getBy; rw [find_none h], fun f hf => ?_⟩
  have hget : getBy D r w m = if f.field.repeated then getMany f w m else getOne f w m := by
    unfold getBy; rw [find_some hf]
  have hkf := hD.kinds f hf.mem
  have hnames : ∀ v, nameOf f.values v = nameFor f.values v := nameOf_eq f.values
  rw [hget]
  unfold Gives
  refine ⟨fun hg => ?_, fun ⟨h1, h2⟩ n1 n2 n3 => ?_⟩
  · cases hr : f.field.repeated with
    | true =>
      rw [if_pos rfl]
      rw [hr] at hg
      unfold getMany
      split
      · rename_i hk; rw [hk] at hg; exact absurd ⟨by decide, rfl⟩ hg
      · rename_i hk; rw [hk] at hg; exact absurd ⟨by decide, rfl⟩ hg
      · rw [if_neg (fun h => hg ⟨(numTy_iff _ _).1 h, rfl⟩)]
      · rfl
    | false =>
      rw [if_neg (by decide)]
      rw [hr] at hg
      unfold getOne
      split
      · rename_i hk; rw [hk] at hg; exact absurd ⟨by decide, rfl⟩ hg
      · rename_i hk; rw [hk] at hg; exact absurd ⟨by decide, rfl⟩ hg
      · rename_i hk; rw [hk] at hg; exact absurd ⟨by decide, rfl⟩ hg
      · rename_i hk; rw [hk] at hg; exact absurd ⟨by decide, rfl⟩ hg
      · rename_i hk; rw [hk] at hg; exact absurd ⟨by decide, rfl⟩ hg
      · rw [if_neg (fun h => hg ⟨(numTy_iff _ _).1 h, rfl⟩)]
      · rfl
  · cases w with
    | num t =>
      rw [if_neg (by rw [h2]; simp [wantIsList])]
      have := (numTy_iff _ _).2 h1
      unfold getOne
      cases hk : f.fkind <;> (rw [hk] at this; first | exact if_pos this | cases this)
    | nums t =>
      rw [if_pos (show f.field.repeated = true from h2)]
      have := (numTy_iff _ _).2 h1
      unfold getMany
      cases hk : f.fkind <;> (rw [hk] at this; first | exact if_pos this | cases this)
    | chars => rw [if_neg (by rw [h2]; simp [wantIsList])]; unfold getOne; rw [List.mem_singleton.1 h1]; rfl
    | bytes => rw [if_neg (by rw [h2]; simp [wantIsList])]; unfold getOne; rw [List.mem_singleton.1 h1]; rfl
    | enumNumber => rw [if_neg (by rw [h2]; simp [wantIsList])]; unfold getOne; rw [List.mem_singleton.1 h1]; rfl
    | enumNumbers => rw [if_pos (show f.field.repeated = true from h2)]; unfold getMany; rw [List.mem_singleton.1 h1]; rfl
    | enumName =>
      rw [if_neg (by rw [h2]; simp [wantIsList])]
      unfold getOne
      rw [List.mem_singleton.1 h1]
      dsimp only
      cases f.field.value m <;> first | rfl | (dsimp only [answer]; rw [hnames])
    | enumNames =>
      rw [if_pos (show f.field.repeated = true from h2)]
      unfold getMany
      rw [List.mem_singleton.1 h1]
      dsimp only
      cases f.field.value m <;> first | rfl | skip
      rename_i vs
      dsimp only [answer]
      rw [namesOf_eq]
      by_cases hn : none ∈ vs
      · rw [if_pos hn, if_pos hn]
      · rw [if_neg hn, if_neg hn]
    | msg =>
      rw [if_neg (by rw [h2]; simp [wantIsList])]
      unfold getOne
      have hk := List.mem_singleton.1 h1
      rw [hk] at hkf ⊢
      obtain ⟨id, hid⟩ := kind_msg hkf
      obtain ⟨hn, hs⟩ := msgType_plain hid
      have hval : f.field.value m = f.field.msgValue m := by
        unfold DynField.value
        rw [h2, hn, hs]
        rfl
      dsimp only
      rw [hval]
      unfold DynField.msgValue
      split
      · split <;> rfl
      · rfl
    | strs => exact absurd rfl n1
    | byteStrs => exact absurd rfl n2
    | msgs => exact absurd rfl n3

/-- What was set is what is then got, by the type that goes with the argument. -/
theorem C137_set_get_partial (T : DynTypes) (depth : Nat) {D : NDesc} (hD : DescOk D) {m m' : DynMsg}
    (hm : m.length = D.slots) {r : Ref} {f : NField} (hf : Finds D r f) {a : Arg} (odd : ¬ Odd f a)
    (plain : isPlain a = true) (strs : ∀ vs, a ≠ .strs vs) (byteStrs : ∀ vs, a ≠ .byteStrs vs)
    (h : setBy T depth D r a m = .ok m') :
    ∃ v, meaning f.values a = some v ∧ getBy D r (wantOf a) m' = .value v := by
  obtain ⟨s1, s2⟩ := (C135_set_partial T depth hD hm r a).2 f hf odd
  have ht : Takes f a := by
    by_cases ht : Takes f a
    · exact ht
    · rw [s1 ht] at h; cases h
  obtain ⟨s3, s4⟩ := s2 ht plain
  cases e : meaning f.values a with
  | none =>
    obtain ⟨_, e'⟩ := s4 e
    rw [e'] at h
    cases h
  | some v =>
    obtain ⟨n, e1, _, e2, _⟩ := s3 v e
    rw [e1] at h
    cases h
    refine ⟨v, rfl, ?_⟩
    have hg : Gives f (wantOf a) := by
      obtain ⟨t1, t2⟩ := ht
      cases a <;> first | exact ⟨t1, t2⟩ | cases plain
    rw [((C137_get_partial hD m' r (wantOf a)).2 f hf).2 hg
      (by intro h; cases a <;> first | exact absurd rfl (strs _) | cases h)
      (by intro h; cases a <;> first | exact absurd rfl (byteStrs _) | cases h)
      (by intro h; cases a <;> simp [wantOf] at h; simp [isPlain] at plain), e2]
    cases a <;> first | rfl | cases plain | skip
    all_goals first
      | (cases e; rfl)
      | (unfold meaning at e; cases e' : List.lookup _ f.values <;> rw [e'] at e <;> cases e; rfl)
      | (unfold meaning at e; cases e' : List.mapM _ _ <;> rw [e'] at e <;> cases e; rfl)

/-- A typed reference is given exactly for a field of that kind. -/
theorem C137_typed (D : NDesc) (r : Ref) (k : FKind) (repeated : Bool) :
    ((∀ f ∈ D.fields, ¬ Names r f) → typedRef D r k repeated = .error .noSuchField) ∧
    ∀ f, Finds D r f → typedRef D r k repeated =
      if f.fkind = k ∧ f.field.repeated = repeated then .ok f else .error .invalidFieldType :=
  ⟨fun h => by unfold typedRef; rw [find_none h], fun f hf => by unfold typedRef; rw [find_some hf]⟩

/-! ## C138: adopting memory -/

/-- A field that adopts a view reads what the buffer of the view holds, then and as long as it is kept. -/
theorem C138_adopt_partial (mem : Bufs) (b : Nat) :
    ∃ b' mem', adopt mem (.view b) = some (b', mem') ∧
      ∀ later : Bufs, readAdopted later b' = readAdopted later b :=
  ⟨b, mem, rfl, fun _ => rfl⟩

/-- The typed `adopt`, too, for views and for objects of the caller. -/
theorem C138_adopt_typed (mem : Bufs) (b : Nat) (l : Lent) (h : l = .view b ∨ l = .owner b) :
    ∃ b' mem', adoptTyped mem l = some (b', mem') ∧
      ∀ later : Bufs, readAdopted later b' = readAdopted later b := by
  rcases h with rfl | rfl <;> exact ⟨b, mem, rfl, fun _ => rfl⟩

/-- The untyped `adopt` of a `std::string` or `std::vector` always leaves the field referring to freed
memory, although the object of the caller lives on. -/
theorem C138_owner_dangles (mem : Bufs) (b : Nat) (bs : List Byte) (h : mem[b]? = some (some bs)) :
    ∃ b' mem', adopt mem (.owner b) = some (b', mem') ∧ readAdopted mem' b' = none ∧
      readAdopted mem' b = some bs := by
  have hlt : b < mem.length := (List.getElem?_eq_some_iff.1 h).1
  refine ⟨mem.length, (mem ++ [some bs]).set mem.length none, by simp [adopt, h], ?_, ?_⟩
  · simp [readAdopted]
  · unfold readAdopted
    rw [List.getElem?_set_ne (by omega), List.getElem?_append_left hlt, h]
    rfl

/-! ## What goes wrong -/

/-- `string label = 1; repeated Mode modes = 2; repeated Sub subs = 3; repeated string labels = 4;
Mode mode = 5;` with `enum Mode { OFF = 0; ON = 1; }`. -/
def accessFields : List NField :=
  [⟨[1], .string, ⟨1, .scalar (.str true), false, false, none, false, false, .bytes [], ⟨0, 1, 0, 0⟩⟩, []⟩,
   ⟨[2], .enum, ⟨2, .scalar (.enum none), true, true, none, false, false, .num 0, ⟨1, 0, 0, 1⟩⟩,
     [([70], 0), ([78], 1)]⟩,
   ⟨[3], .message, ⟨3, .msg 1, true, false, none, false, false, .num 0, ⟨2, 0, 0, 2⟩⟩, []⟩,
   ⟨[4], .string, ⟨4, .scalar (.str true), true, false, none, false, false, .num 0, ⟨3, 0, 0, 3⟩⟩, []⟩,
   ⟨[5], .enum, ⟨5, .scalar (.enum none), false, false, none, false, false, .num 0, ⟨4, 1, 0, 4⟩⟩,
     [([70], 0), ([78], 1)]⟩]

def accessDesc : NDesc := ⟨accessFields, 5⟩

def accessTypes : DynTypes
  | 0 => accessDesc.desc
  | 1 => ⟨[exCount], 1, false⟩
  | _ => ⟨[], 0, false⟩

/-- The factory accepts it. -/
theorem accessDesc_ok : DescOk accessDesc := by
  refine ⟨⟨⟨0, ?_, by decide +kernel⟩, ?_, ?_⟩, ?_⟩
  · intro f hf
    simp only [NDesc.desc, accessDesc, accessFields, List.map, List.mem_cons, List.not_mem_nil, or_false] at hf
    rcases hf with rfl | rfl | rfl | rfl | rfl <;> simp
  · intro f hf
    simp only [NDesc.desc, accessDesc, accessFields, List.map, List.mem_cons, List.not_mem_nil, or_false] at hf
    rcases hf with rfl | rfl | rfl | rfl | rfl <;> simp
  · intro f hf
    simp only [NDesc.desc, accessDesc, accessFields, List.map, List.mem_cons, List.not_mem_nil, or_false] at hf
    rcases hf with rfl | rfl | rfl | rfl | rfl <;>
      simp [DynField.explicit, DynField.presence, presenceFor, Val.bits, Val.str]
  · intro f hf
    simp only [accessDesc, accessFields, List.mem_cons, List.not_mem_nil, or_false] at hf
    rcases hf with rfl | rfl | rfl | rfl | rfl <;> rfl

/-- The full claim of C135: a field is set exactly by arguments meant for it. -/
def C135_statement : Prop :=
  ∀ (T : DynTypes) (depth : Nat) (D : NDesc), DescOk D → ∀ (m : DynMsg), m.length = D.slots →
    ∀ (r : Ref) (a : Arg) (f : NField), Finds D r f → isPlain a = true →
      ((∃ m', setBy T depth D r a m = .ok m') ↔ Takes f a ∧ meaning f.values a ≠ none)

theorem finds_head {D : NDesc} {r : Ref} {f : NField} {fs : List NField} (h : D.fields = f :: fs)
    (hn : Names r f) : Finds D r f := ⟨[], fs, h, hn, fun _ hg => nomatch hg⟩

/-- A string field takes an enum name, whether or not any enum has it. -/
theorem C135_enum_name_as_string :
    ∃ f, Finds accessDesc (.byName [1]) f ∧ f.fkind = .string ∧
      ∃ m', setBy accessTypes 1 accessDesc (.byName [1]) (.enumName [99]) accessDesc.desc.empty = .ok m' ∧
        f.field.value m' = .str [99] :=
  ⟨_, finds_head rfl rfl, rfl, _, rfl, rfl⟩

/-- A repeated enum field does not take `enum_numbers_span`, although its comment shows that use. -/
theorem C135_enum_span (T : DynTypes) (depth : Nat) (D : NDesc) (r : Ref) (vs : List (BitVec 64))
    (m m' : DynMsg) : setBy T depth D r (.enumSpan vs) m ≠ .ok m' := by
  unfold setBy
  split
  · rename_i f _
    have : settable f (.enumSpan vs) = false := by
      unfold settable
      split <;> cases f.fkind <;> rfl
    simp [setField, this]
  · simp

theorem C135_statement_false : ¬ C135_statement := by
  intro h
  obtain ⟨f, hf, hk, m', h1, _⟩ := C135_enum_name_as_string
  have := (h accessTypes 1 accessDesc accessDesc_ok accessDesc.desc.empty rfl _ _ f hf rfl).1 ⟨m', h1⟩
  have h3 := List.mem_singleton.1 this.1.1
  rw [hk] at h3
  cases h3

/-- The full claim of C136: a failed call leaves every field as it was. -/
def C136_statement : Prop :=
  ∀ (T : DynTypes) (depth : Nat) (D : NDesc), DescOk D → ∀ (m : DynMsg), m.length = D.slots →
    ∀ (r : Ref) (a : Arg) (e : Errc) (m' : DynMsg), setBy T depth D r a m = .fail e m' →
      ∀ f ∈ D.fields, f.field.value m' = f.field.value m

/-- Setting `modes = [ON]` to the names `[OFF, X]` fails and leaves `[OFF]`; setting `subs` to a message of
its type and one of another fails and leaves two messages. -/
theorem C136_disagreement :
    ∃ modes ∈ accessFields, ∃ subs ∈ accessFields, ∃ m m1 m2,
      setBy accessTypes 2 accessDesc (.byName [2]) (.enumNumbers [1]) accessDesc.desc.empty = .ok m ∧
      modes.field.value m = .nums [some 1] ∧ subs.field.value m = .msgs [] ∧
      setBy accessTypes 2 accessDesc (.byName [2]) (.enumNames [[70], [88]]) m = .fail .invalidEnumName m1 ∧
      modes.field.value m1 = .nums [some 0] ∧
      setBy accessTypes 2 accessDesc (.byName [3])
        (.msgs [(1, (accessTypes 1).empty), (0, accessDesc.desc.empty)]) m = .fail .wrongMessageType m2 ∧
      ∃ s t, subs.field.value m2 = .msgs [s, t] := by
  refine ⟨accessFields[1], List.getElem_mem _, accessFields[2], List.getElem_mem _, ?_⟩
  exact ⟨_, _, _, rfl, rfl, rfl, rfl, rfl, rfl, _, _, rfl⟩

theorem C136_statement_false : ¬ C136_statement := by
  intro h
  obtain ⟨f, hf, _, _, m, m1, _, e0, e1, _, e2, e3, _⟩ := C136_disagreement
  cases e0
  have := h accessTypes 2 accessDesc accessDesc_ok _ rfl _ _ _ _ e2 f hf
  rw [e1, e3] at this
  revert this
  simp

/-- The full claim of C137: a field of the right kind answers. -/
def C137_statement : Prop :=
  ∀ (D : NDesc), DescOk D → ∀ (m : DynMsg) (r : Ref) (w : Want) (f : NField), Finds D r f → Gives f w →
    getBy D r w m = answer f.values w (f.field.value m)

/-- Repeated strings, byte strings and messages cannot be got at all. -/
theorem C137_no_lists (D : NDesc) (r : Ref) (w : Want) (m : DynMsg)
    (h : w = .strs ∨ w = .byteStrs ∨ w = .msgs) :
    ∃ e, getBy D r w m = .fail e := by
  unfold getBy
  split
  · rename_i f _
    refine ⟨.invalidFieldType, ?_⟩
    rcases h with rfl | rfl | rfl <;> (unfold getMany getOne; split <;> cases f.fkind <;> rfl)
  · exact ⟨_, rfl⟩

theorem C137_statement_false : ¬ C137_statement := by
  intro h
  have hf : Finds accessDesc (.byNumber 4) accessFields[3] :=
    ⟨accessFields.take 3, accessFields.drop 4, rfl, rfl, by
      intro g hg
      simp only [accessFields, List.take, List.mem_cons, List.not_mem_nil, or_false] at hg
      rcases hg with rfl | rfl | rfl <;> (unfold Names; decide)⟩
  have h1 := h accessDesc accessDesc_ok accessDesc.desc.empty (.byNumber 4) .strs _ hf ⟨by decide, rfl⟩
  obtain ⟨e, h2⟩ := C137_no_lists accessDesc (.byNumber 4) .strs accessDesc.desc.empty (Or.inl rfl)
  rw [h2] at h1
  cases h1

/-! ## Cases that meet the hypotheses -/

example : DescOk accessDesc ∧ accessDesc.desc.empty.length = accessDesc.slots := ⟨accessDesc_ok, rfl⟩

/-- Setting, getting and a chain that stops at an unknown field. -/
example : ∃ m m', chain accessTypes 1 accessDesc [.set (.byName [1]) (.chars [7, 8]),
      .set (.byNumber 5) (.enumName [78])] accessDesc.desc.empty = .ok m ∧
    getBy accessDesc (.byNumber 1) .chars m = .value (.str [7, 8]) ∧
    getBy accessDesc (.byName [5]) .enumName m = .name [78] ∧
    chain accessTypes 1 accessDesc [.set (.byName [1]) (.chars [7]), .set (.byName [9]) (.chars [7]),
      .set (.byNumber 5) (.enumNumber 1)] accessDesc.desc.empty = .fail .noSuchField m' ∧
    getBy accessDesc (.byNumber 1) .chars m' = .value (.str [7]) ∧
    getBy accessDesc (.byNumber 5) .enumNumber m' = .value (.num 0) :=
  ⟨_, _, rfl, rfl, rfl, rfl, rfl, rfl⟩

/-- The types meet the premises of the theorems on messages. -/
example : (∀ id, (accessTypes id).Ok) ∧ ∀ id, ∀ f ∈ (accessTypes id).fields,
    ∀ g ∈ (accessTypes id).fields, SameOneof f g → f = g := by
  refine ⟨fun id => ?_, fun id f hf g hg ⟨o, h1, _⟩ => ?_⟩
  · match id with
    | 0 => exact accessDesc_ok.ok
    | 1 => exact exampleTypes_ok 1
    | _ + 2 => exact exampleTypes_ok 2
  · exfalso
    match id with
    | 0 =>
      simp only [accessTypes, NDesc.desc, accessDesc, accessFields, List.map, List.mem_cons, List.not_mem_nil,
        or_false] at hf
      rcases hf with rfl | rfl | rfl | rfl | rfl <;> cases h1
    | 1 =>
      simp only [accessTypes, List.mem_cons, List.not_mem_nil, or_false] at hf
      rw [hf] at h1
      cases h1
    | _ + 2 => cases hf

end HppProto.Props
