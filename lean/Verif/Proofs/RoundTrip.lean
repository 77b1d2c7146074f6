import Verif.Proofs.EncodeRec
import Verif.Proofs.Merge
/-! The encoding of a message, read on top of another message, merges the two. -/
namespace HppProto
open Spec

/-! ### Objects that can be read into -/

/-- Contents of a member that can be read into. -/
def shapeSlot (C : Cfg) (P : Nat → Msg → Prop) (sd : SlotD) (es : List (Nat × Val)) : Prop :=
  match sd with
  | .field _ _ (.map true) => Asc es ∧ ∀ p ∈ es, p.1 = 0
  | .field _ k _ => ∀ e ∈ es, ∀ sub, k = .msg sub ∨ k = .group sub → P sub (e.2.asMsg (C.schema sub).default)
  | .oneof alts => es.length ≤ 1 ∧ ∀ e ∈ es, ∀ n k sub, alts[e.1]? = some (n, k) → k = .msg sub ∨ k = .group sub →
      P sub (e.2.asMsg (C.schema sub).default)

def shape (C : Cfg) : Nat → Nat → Msg → Prop
  | 0, _, _ => True
  | d + 1, id, m => m.slots.length = (C.schema id).slots.length ∧
    ∀ p ∈ (C.schema id).slots.zip m.slots, shapeSlot C (shape C d) p.1 p.2

section
variable {C : Cfg}

theorem shape_default (hS : schemaOk C) : ∀ d id, shape C d id (C.schema id).default
  | 0, _ => trivial
  | d + 1, id => by
    refine ⟨by simp [MsgD.default], ?_⟩
    rintro ⟨sd, es⟩ hp
    simp only [MsgD.default] at hp
    rw [List.zip_map_right, List.mem_map] at hp
    obtain ⟨⟨a, b⟩, hab, he⟩ := hp
    have hb : a = b := by
      have : ∀ (l : List SlotD), (a, b) ∈ l.zip l → a = b := by
        intro l
        induction l with
        | nil => intro h; cases h
        | cons x l ih =>
          intro h
          rw [List.zip_cons_cons, List.mem_cons] at h
          rcases h with h | h
          · cases h; rfl
          · exact ih h
      exact this _ hab
    subst hb
    have hm := (List.of_mem_zip hab).1
    simp only [Prod.map, id_eq, Prod.mk.injEq] at he
    obtain ⟨rfl, rfl⟩ := he
    cases a with
    | oneof alts => exact ⟨by simp [SlotD.initial], by simp [SlotD.initial]⟩
    | field n k card =>
      have one : ∀ dflt, card = .implicit dflt ∨ card = .always dflt →
          ∀ e ∈ [((0 : Nat), dflt)], ∀ sub, k = .msg sub ∨ k = .group sub → shape C d sub (e.2.asMsg (C.schema sub).default) := by
        intro dflt hc e he sub hk
        rw [List.mem_singleton.1 he, hS.plain id n k card dflt sub hm hc hk]
        exact shape_default hS d sub
      cases card with
      | implicit dflt => exact one dflt (.inl rfl)
      | always dflt => exact one dflt (.inr rfl)
      | map u => cases u <;> simp [shapeSlot, SlotD.initial, Asc]
      | _ => simp [shapeSlot, SlotD.initial]

theorem shape_obj : ∀ e d id m, objOk C d id m → shape C e id m
  | 0, _, _, _, _ => trivial
  | e + 1, 0, _, _, h => h.elim
  | e + 1, d + 1, id, m, ⟨h1, h2, _⟩ => by
    refine ⟨h1, ?_⟩
    rintro ⟨sd, es⟩ hp
    have h := h2 _ hp
    have val : ∀ {k v}, valOk C (objOk C d) k v → ∀ sub, k = .msg sub ∨ k = .group sub → shape C e sub (v.asMsg (C.schema sub).default) := by
      intro k v h sub hk
      rcases hk with rfl | rfl <;> obtain ⟨m, rfl, h⟩ := h <;> exact shape_obj e d sub m h
    cases sd with
    | oneof alts =>
      rcases h with h | ⟨j, n, k, v, h, ha, hv⟩ <;> simp only at h <;> subst h
      · exact ⟨by simp, by simp⟩
      · refine ⟨by simp, ?_⟩
        intro x hx n' k' sub hk' hs
        rw [List.mem_singleton.1 hx] at hk' ⊢
        rw [ha] at hk'
        cases hk'
        exact val hv sub hs
    | field n k card =>
      have one : ∀ v : Val, valOk C (objOk C d) k v →
          ∀ x ∈ [((0 : Nat), v)], ∀ sub, k = .msg sub ∨ k = .group sub → shape C e sub (x.2.asMsg (C.schema sub).default) := by
        intro v hv x hx sub hk
        rw [List.mem_singleton.1 hx]
        exact val hv sub hk
      cases card with
      | implicit dflt => obtain ⟨v, h, hv, -⟩ := h; simp only at h; subst h; exact one v hv
      | always dflt => obtain ⟨v, h, hv⟩ := h; simp only at h; subst h; exact one v hv
      | optional =>
        rcases h with h | ⟨v, h, hv⟩ <;> simp only at h <;> subst h
        · simp [shapeSlot]
        · exact one v hv
      | repeated p => exact fun x hx sub hk => val (h x hx).2 sub hk
      | map u =>
        cases u with
        | true => exact ⟨h.2, fun x hx => (h.1 x hx).1⟩
        | false => exact fun x hx sub hk => val (h x hx).2 sub hk

/-! ### Records that leave the unknown fields alone -/

/-- Records of one member, nothing diverted. -/
def quiet (C : Cfg) (S : Sem) (sd : SlotD) : List Rec → List (Nat × Val) → List (Nat × Val) → Prop
  | [], es, es' => es = es'
  | r :: rs, es, es' => ∃ es1, slotEff C S sd r es es1 [] ∧ quiet C S sd rs es1 es'

theorem fold_quiet {S : Sem} {D : MsgD} {i sd} (hs : D.slots[i]? = some sd) : ∀ {rs last m es'}, m.slots.length = D.slots.length →
    (∀ r ∈ rs, ofMember D i r = true ∧ tagNumber r.tag ≠ 0#32) → quiet C S sd rs (m.get i) es' →
    fold C S D last rs m (m.put i es')
  | [], _, m, es', _, _, h => by cases h; exact (put_get m i).symm
  | r :: rs, last, m, es', hl, hr, h => by
    obtain ⟨es1, h1, h2⟩ := h
    have hi : i < m.slots.length := by rw [hl]; exact (List.getElem?_eq_some_iff.1 hs).1
    have hf : D.find (tagNumber r.tag) = some i := by simpa [ofMember] using (hr r List.mem_cons_self).1
    refine ⟨m.put i es1, (step_known hf hs).2 ⟨(hr r List.mem_cons_self).2, slotStep_eff.2 ⟨es1, [], h1, rfl⟩⟩, ?_⟩
    have := fold_quiet (S := S) hs (last := nextRun D r) (m := m.put i es1) (es' := es') (by rw [put_length, hl])
      (fun q hq => hr q (List.mem_cons_of_mem _ hq)) (by rw [get_put_self hi]; exact h2)
    have e : (m.put i es1).put i es' = m.put i es' := by simp [MsgOf.put]
    rwa [e] at this

/-- A list of elements, one record each. -/
theorem quiet_list {S : Sem} {sd : SlotD} {P : Rec → Prop} {enc : Nat × Val → List Byte} {f : List (Nat × Val) → Nat × Val → List (Nat × Val)} :
    ∀ {es : List (Nat × Val)}, (∀ e ∈ es, ∃ r : Rec, r.wf ∧ r.raw = enc e ∧ P r ∧ ∀ dest, slotEff C S sd r dest (f dest e) []) →
    ∃ rs, wfAll rs ∧ rawAll rs = es.flatMap enc ∧ (∀ r ∈ rs, P r) ∧ ∀ dest, quiet C S sd rs dest (es.foldl f dest)
  | [], _ => ⟨[], trivial, rfl, by simp, fun _ => rfl⟩
  | e :: es, h => by
    obtain ⟨r, h1, h2, h3, h4⟩ := h e (by simp)
    obtain ⟨rs, i1, i2, i3, i4⟩ := quiet_list (es := es) (fun x hx => h x (by simp [hx]))
    refine ⟨r :: rs, ⟨h1, i1⟩, ?_, ?_, fun dest => ⟨_, h4 dest, i4 _⟩⟩
    · rw [rawAll_cons, i2, List.flatMap_cons, ← h2]; rfl
    · intro q hq
      rcases List.mem_cons.1 hq with rfl | hq
      · exact h3
      · exact i3 q hq

/-! ### Values -/

theorem leb_ne (n : Nat) : leb n ≠ [] := by unfold leb; split <;> simp

theorem scalar_ne {sc : Scalar} (v : Val) : scalar sc v ≠ [] := by
  cases sc <;> simp [scalar, leb_ne, littleEndian]

theorem leb_append_ne (n : Nat) (l : List Byte) : leb n ++ l ≠ [] := by simp [leb_ne]

theorem base_head (id : Nat) (dest : List (Nat × Val)) : mergeBase C id dest = (headVal C (.msg id) dest).asMsg (C.schema id).default := by
  cases dest <;> rfl

theorem base_head_group (id : Nat) (dest : List (Nat × Val)) : mergeBase C id dest = (headVal C (.group id) dest).asMsg (C.schema id).default := by
  cases dest <;> rfl

/-- What is known one level down. -/
def Below (C : Cfg) (mv : Bool) (d : Nat) : Prop := ∀ id b, objOk C d id b → (encode C isDefault d id b).length < 2 ^ 32 →
  ∃ rs, wfAll rs ∧ rawAll rs = encode C isDefault d id b ∧
    ((C.schema id).isEntry = true → ∃ b0 l, encode C isDefault d id b = b0 :: l ∧ b0 >>> 3 = 1#8) ∧
    ∀ a, shape C d id a → (sem C d).grp id a rs (mergeMsg C mv id a b) ∧
      (sem C d).msg id a (encode C isDefault d id b) (mergeMsg C mv id a b)

/-- A record header of an embedded message. -/
theorem len_rec {n : BitVec 32} (hn : n.toNat < 2 ^ 25) {v : List Byte} (hv : v.length < 2 ^ 32) :
    ∃ r, r = Rec.len (makeTag n wtLen) (tag n 2) (leb v.length) v ∧ r.wf ∧ r.raw = lenRecord n v ∧ tagNumber r.tag = n := by
  obtain ⟨t1, t2, t3, -, t4⟩ := tag_read (wt := wtLen) (w := 2) hn rfl (by omega)
  have hp := leb_varint (v := v.length) (k := 6) (by rw [leb_eq]; exact Nat.le_trans (packVarint_length_le5 hv) (by omega))
  refine ⟨_, rfl, ?_, ?_, t3⟩
  · unfold Rec.wf
    exact ⟨t1, t2, hp.1, by rw [hp.2]; omega⟩
  · simp only [Rec.raw, Rec.head, Rec.payload, lenRecord, List.append_assoc]

/-- An embedded message or group as a record. -/
theorem sub_rec {mv d} (L : Below C mv d) {k : Kind} {sub : Nat} (hk : k = .msg sub ∨ k = .group sub) {n : BitVec 32}
    (hn : n.toNat < 2 ^ 25) (h0 : 0 < n.toNat) {m : Msg} (hm : objOk C d sub m)
    (hl : (record C (encode C isDefault d) n k (.msg m)).length < 2 ^ 32) :
    ∃ r, r.wf ∧ r.raw = record C (encode C isDefault d) n k (.msg m) ∧ tagNumber r.tag = n ∧
      ∀ a, shape C d sub a → recMsg C (sem C d) k r a (mergeMsg C mv sub a m) := by
  rcases hk with rfl | rfl
  · simp only [record, Val.asMsg] at hl ⊢
    have hle : (encode C isDefault d sub m).length < 2 ^ 32 := by
      simp only [lenRecord, List.length_append] at hl
      exact Nat.lt_of_le_of_lt (Nat.le_add_left _ _) hl
    obtain ⟨rs, w1, w2, w3, w4⟩ := L sub m hm hle
    obtain ⟨r, e, r1, r2, r3⟩ := len_rec hn hle
    refine ⟨r, r1, r2, r3, fun a ha => ?_⟩
    subst e
    refine ⟨?_, (w4 a ha).2⟩
    rintro ⟨e1, e2⟩
    obtain ⟨b0, l, e3, -⟩ := w3 e2
    rw [e1] at e3
    cases e3
  · simp only [record, Val.asMsg] at hl ⊢
    have hle : (encode C isDefault d sub m).length < 2 ^ 32 := by
      simp only [List.length_append] at hl
      refine Nat.lt_of_le_of_lt ?_ hl
      rw [Nat.add_comm (tag n 3).length, Nat.add_assoc]
      exact Nat.le_add_right _ _
    obtain ⟨rs, w1, w2, w3, w4⟩ := L sub m hm hle
    obtain ⟨t1, t2, t3, t5, -⟩ := tag_read (wt := wtSGroup) (w := 3) hn rfl (by omega)
    obtain ⟨u1, u2, -, u5, -⟩ := tag_read (wt := wtEGroup) (w := 4) hn rfl (by omega)
    refine ⟨.group (makeTag n wtSGroup) (tag n 3) rs (tag n 4), ?_, ?_, t3, fun a ha => (w4 a ha).1⟩
    · unfold Rec.wf
      exact ⟨t1, t2, w1, _, u1, u2, u5.trans t5.symm⟩
    · simp only [Rec.raw, Rec.head, Rec.payload, w2, List.append_assoc]

/-- A value read on top of what the member holds. -/
theorem value_rec {mv d} (L : Below C mv d) {k : Kind} {n : BitVec 32} (hn : n.toNat < 2 ^ 25) (h0 : 0 < n.toNat)
    {v : Val} (hv : valOk C (objOk C d) k v) (hl : (record C (encode C isDefault d) n k v).length < 2 ^ 32) :
    ∃ r, r.wf ∧ r.raw = record C (encode C isDefault d) n k v ∧ tagNumber r.tag = n ∧
      (∀ sc, k = .scalar sc → recScalar C sc r = some v ∧ sc.valid v = true ∧ narrow sc v = v ∧
        (sc.packable = true → ∀ t h p x, r ≠ .len t h p x)) ∧
      (∀ old, (∀ sub, k = .msg sub ∨ k = .group sub → shape C d sub (old.asMsg (C.schema sub).default)) →
        recValue C (sem C d) k old r
          (match k with | .scalar _ => v | .msg sub | .group sub => .msg (mergeMsg C mv sub (old.asMsg (C.schema sub).default) (v.asMsg (C.schema sub).default)))) := by
  cases k with
  | scalar sc =>
    have hl' : (scalar sc v).length < 2 ^ 32 := by
      simp only [record, List.length_append] at hl
      exact Nat.lt_of_le_of_lt (Nat.le_add_left _ _) hl
    obtain ⟨r, r1, r2, r3, -, r5, r6⟩ := scalar_rec hn h0 hv hl'
    obtain ⟨v1, v2⟩ := valid_of_ok hv
    refine ⟨r, r1, r2, r3, ?_, fun old _ => ⟨v, r5, v2.symm⟩⟩
    rintro sc' ⟨⟩
    exact ⟨r5, v1, v2, r6⟩
  | msg sub =>
    obtain ⟨m, rfl, hm⟩ := hv
    obtain ⟨r, r1, r2, r3, r4⟩ := sub_rec L (.inl rfl) hn h0 hm hl
    exact ⟨r, r1, r2, r3, by simp, fun old ho => ⟨_, r4 _ (ho sub (.inl rfl)), rfl⟩⟩
  | group sub =>
    obtain ⟨m, rfl, hm⟩ := hv
    obtain ⟨r, r1, r2, r3, r4⟩ := sub_rec L (.inr rfl) hn h0 hm hl
    exact ⟨r, r1, r2, r3, by simp, fun old ho => ⟨_, r4 _ (ho sub (.inr rfl)), rfl⟩⟩

theorem findAlt_of_get {n : BitVec 32} {k : Kind} : ∀ {alts : List (BitVec 32 × Kind)} {j j0}, (alts.map Prod.fst).Nodup →
    alts[j]? = some (n, k) → findAlt n alts j0 = some (j0 + j, k)
  | [], _, _, _, h => by cases h
  | (a, ka) :: alts, 0, j0, _, h => by cases h; simp [findAlt]
  | (a, ka) :: alts, j + 1, j0, hn, h => by
    simp only [List.map_cons, List.nodup_cons] at hn
    rw [List.getElem?_cons_succ] at h
    have hne : a ≠ n := by
      rintro rfl
      exact hn.1 (List.mem_map.2 ⟨_, List.mem_of_getElem? h, rfl⟩)
    simp only [findAlt]
    rw [if_neg (by simpa using hne), findAlt_of_get hn.2 h]
    congr 2
    omega

theorem len_flatMap_le {α β} {f : α → List β} : ∀ {l : List α} {x}, x ∈ l → (f x).length ≤ (l.flatMap f).length
  | [], _, h => by cases h
  | y :: l, x, h => by
    rw [List.flatMap_cons, List.length_append]
    rcases List.mem_cons.1 h with rfl | h
    · omega
    · have := len_flatMap_le (f := f) h; omega

theorem foldl_append_map {g : Nat × Val → Nat × Val} : ∀ (es dest : List (Nat × Val)), es.foldl (fun d e => d ++ [g e]) dest = dest ++ es.map g
  | [], _ => by simp
  | e :: es, dest => by rw [List.foldl_cons, foldl_append_map es]; simp

theorem foldl_insert : ∀ (es dest : List (Nat × Val)), es.foldl (fun d e => insertOrAssign e.2 d) dest = insertAll (es.map Prod.snd) dest
  | [], _ => rfl
  | e :: es, dest => by rw [List.foldl_cons, foldl_insert es]; rfl

/-! ### One member -/

/-- Number of a record of the member. -/
def goodNum (sd : SlotD) (r : Rec) : Prop := sd.hasNumber (tagNumber r.tag) = true ∧ tagNumber r.tag ≠ 0#32

theorem ne_zero {n : BitVec 32} (h : 0 < n.toNat) : n ≠ 0#32 := by rintro rfl; simp at h

/-- The records of one member as written merge its contents into what was there. -/
theorem slot_quiet (hS : schemaOk C) {mv d} (L : Below C mv d) {id : Nat} {sd : SlotD} (hsd : sd ∈ (C.schema id).slots)
    {es : List (Nat × Val)} (hes : slotOk true C (objOk C d) sd es)
    (hl : (member C isDefault (encode C isDefault d) sd es).length < 2 ^ 32) :
    ∃ rs, wfAll rs ∧ rawAll rs = member C isDefault (encode C isDefault d) sd es ∧ (∀ r ∈ rs, goodNum sd r) ∧
      ∀ dest, shapeSlot C (shape C d) sd dest → quiet C (sem C d) sd rs dest (mergeSlot C mv sd dest es) := by
  have hrange : ∀ n : BitVec 32, sd.hasNumber n = true → 0 < n.toNat ∧ n.toNat < 2 ^ 25 := by
    intro n hn
    apply hS.range id
    rw [← slotKind_has] at hn
    unfold fieldKind
    rw [List.findSome?_isSome_iff]
    exact ⟨sd, hsd, hn⟩
  cases sd with
  | oneof alts =>
    rcases hes with rfl | ⟨j, n, k, v, rfl, ha, hv⟩
    · exact ⟨[], trivial, rfl, by simp, fun dest _ => by rw [mergeSlot_nil]; rfl⟩
    · have hn : SlotD.hasNumber n (.oneof alts) = true := by
        simp only [SlotD.hasNumber, List.any_eq_true]
        exact ⟨_, List.mem_of_getElem? ha, by simp⟩
      obtain ⟨h0, h25⟩ := hrange n hn
      have hfa := findAlt_of_get (j0 := 0) (hS.alts id alts hsd) ha
      rw [Nat.zero_add] at hfa
      have em : member C isDefault (encode C isDefault d) (.oneof alts) [(j, v)] = record C (encode C isDefault d) n k v := by
        simp only [member, List.flatMap_cons, ha, List.flatMap_nil, List.append_nil]
      rw [em] at hl ⊢
      obtain ⟨r, r1, r2, r3, r4, r5⟩ := value_rec L h25 h0 hv hl
      refine ⟨[r], ⟨r1, trivial⟩, ?_, ?_, ?_⟩
      · rw [← r2]; simp [rawAll, Rec.raw]
      · intro q hq
        rw [List.mem_singleton.1 hq]
        exact ⟨by rw [r3]; exact hn, by rw [r3]; exact ne_zero h0⟩
      intro dest hd
      refine ⟨_, ⟨j, k, by rw [r3]; exact hfa, ?_⟩, rfl⟩
      simp only [mergeSlot, ha]
      have sub : ∀ sub, k = .msg sub ∨ k = .group sub → altVal C k j dest = altVal C k j dest →
          shape C d sub ((altVal C k j dest).asMsg (C.schema sub).default) := by
        intro sub hk _
        have hz : shape C d sub ((k.zero C).asMsg (C.schema sub).default) := by
          rcases hk with rfl | rfl <;> exact shape_default hS d sub
        cases dest with
        | nil => exact hz
        | cons x dest =>
          obtain ⟨a, w⟩ := x
          simp only [altVal]
          split
          · rename_i e; subst e
            exact hd.2 (a, w) (by simp) n k sub ha hk
          · exact hz
      have sub' := r5 (altVal C k j dest) (fun s hk => sub s hk rfl)
      have key : ∀ s, k = .msg s ∨ k = .group s → ∀ m, v = .msg m → objOk C d s m →
          .msg (mergeMsg C mv s ((altVal C k j dest).asMsg (C.schema s).default) m) =
            (if dest.map Prod.fst = [j] then mergeVal C mv k dest v else v) := by
        intro s hk m hm ho
        subst hm
        have mval : mergeVal C mv k dest (.msg m) = .msg (mergeMsg C mv s (mergeBase C s dest) m) := by
          rcases hk with rfl | rfl
          · exact mergeVal_msg ..
          · exact mergeVal_group ..
        rw [mval]
        have hz : (k.zero C).asMsg (C.schema s).default = (C.schema s).default := by
          rcases hk with rfl | rfl <;> rfl
        rcases dest with _ | ⟨⟨a, w⟩, _ | ⟨y, dest⟩⟩
        · simp only [List.map_nil, altVal]
          rw [if_neg (by simp), hz, merge_default hS d s m ho]
        · simp only [List.map_cons, List.map_nil, altVal, mergeBase]
          by_cases hj : a = j
          · rw [if_pos hj, if_pos (by rw [hj])]
          · rw [if_neg hj, if_neg (by simpa using hj), hz, merge_default hS d s m ho]
        · have := hd.1; simp at this
      cases k with
      | scalar sc =>
        obtain ⟨q1, q2, q3, -⟩ := r4 sc rfl
        have hcl : Kind.closed (.scalar sc) = false := by
          have := hS.oneofs id alts hsd _ (List.mem_of_getElem? ha)
          cases sc with
          | enum c => cases c with
            | none => rfl
            | some vs => exact absurd rfl (this vs)
          | _ => rfl
        refine ⟨v, q1, ?_⟩
        rw [if_pos q2]
        refine ⟨by simp [hcl], ?_, trivial⟩
        rw [q3]
        split
        · rw [mergeVal_scalar]
        · rfl
      | msg s =>
        obtain ⟨m, rfl, ho⟩ := hv
        refine ⟨_, sub', ?_, trivial⟩
        refine Eq.trans ?_ (congrArg (fun v => [(j, v)]) (key s (.inl rfl) m rfl ho).symm)
        split <;> rfl
      | group s =>
        obtain ⟨m, rfl, ho⟩ := hv
        refine ⟨_, sub', ?_, trivial⟩
        refine Eq.trans ?_ (congrArg (fun v => [(j, v)]) (key s (.inr rfl) m rfl ho).symm)
        split <;> rfl
  | field n k card =>
    have hn : SlotD.hasNumber n (.field n k card) = true := by simp [SlotD.hasNumber]
    obtain ⟨h0, h25⟩ := hrange n hn
    have good : ∀ r : Rec, tagNumber r.tag = n → goodNum (.field n k card) r := fun r e =>
      ⟨by rw [e]; exact hn, by rw [e]; exact ne_zero h0⟩
    -- a value of a singular member
    have single : ∀ v, valOk C (objOk C d) k v → (record C (encode C isDefault d) n k v).length < 2 ^ 32 →
        ∃ r, r.wf ∧ r.raw = record C (encode C isDefault d) n k v ∧ tagNumber r.tag = n ∧
        (∀ sc, k = .scalar sc → recScalar C sc r = some v ∧ sc.valid v = true ∧ narrow sc v = v) ∧
        ∀ dest, (∀ e ∈ dest, ∀ sub, k = .msg sub ∨ k = .group sub → shape C d sub (e.2.asMsg (C.schema sub).default)) →
          recValue C (sem C d) k (headVal C k dest) r (mergeVal C mv k dest v) := by
      intro v hv hl
      obtain ⟨r, r1, r2, r3, r4, r5⟩ := value_rec L h25 h0 hv hl
      refine ⟨r, r1, r2, r3, fun sc e => ⟨(r4 sc e).1, (r4 sc e).2.1, (r4 sc e).2.2.1⟩, fun dest hd => ?_⟩
      have ho : ∀ sub, k = .msg sub ∨ k = .group sub → shape C d sub ((headVal C k dest).asMsg (C.schema sub).default) := by
        intro sub hk
        cases dest with
        | nil => rcases hk with rfl | rfl <;> exact shape_default hS d sub
        | cons x dest => obtain ⟨a, w⟩ := x; exact hd (a, w) (by simp) sub hk
      have := r5 _ ho
      cases k with
      | scalar sc => rw [mergeVal_scalar]; exact this
      | msg s => obtain ⟨m, rfl, -⟩ := hv; rw [mergeVal_msg, base_head]; exact this
      | group s => obtain ⟨m, rfl, -⟩ := hv; rw [mergeVal_group, base_head_group]; exact this
    have rawOne : ∀ r : Rec, rawAll [r] = r.raw := by intro r; simp [rawAll, Rec.raw]
    -- elements of a repeated member, one record each
    have elems : ∀ unique, (∀ e ∈ es, e.1 = 0 ∧ valOk C (objOk C d) k e.2) →
        (∀ sc, k = .scalar sc → unique = false) → (∀ s, k = .group s → unique = false) →
        (es.flatMap (fun e => record C (encode C isDefault d) n k e.2)).length < 2 ^ 32 →
        ∀ e ∈ es, ∃ r : Rec, r.wf ∧ r.raw = record C (encode C isDefault d) n k e.2 ∧ tagNumber r.tag = n ∧
          ∀ dest, repEff C (sem C d) n k unique r dest (if unique then insertOrAssign e.2 dest else dest ++ [(0, e.2)]) [] := by
      intro unique hes hu hg hl e he
      have hv := (hes e he).2
      have hle := Nat.lt_of_le_of_lt (len_flatMap_le (f := fun e : Nat × Val => record C (encode C isDefault d) n k e.2) he) hl
      obtain ⟨r, r1, r2, r3, r4, r5⟩ := value_rec L h25 h0 hv hle
      refine ⟨r, r1, r2, r3, fun dest => ?_⟩
      cases k with
      | scalar sc =>
        obtain ⟨q1, q2, q3, q4⟩ := r4 sc rfl
        rw [hu sc rfl]
        have el : ∀ u, elemEff C (sem C d) (.scalar sc) u r dest (dest ++ [(0, e.2)]) [] := by
          intro u
          refine ⟨e.2, q1, ?_⟩
          rw [q3, if_pos q2]
          exact ⟨rfl, rfl⟩
        cases r with
        | len t h p x =>
          simp only [repEff]
          split
          · rename_i hp; exact absurd rfl (q4 hp t h p x)
          · exact el false
        | _ => exact el false
      | msg s =>
        obtain ⟨m, hm, ho⟩ := hv
        have := r5 (.msg (C.schema s).default) (fun sub hk => by
          rcases hk with hk | hk <;> cases hk; exact shape_default hS d s)
        obtain ⟨m', q, e'⟩ := this
        simp only [Val.asMsg, hm] at e' q
        cases e'
        rw [merge_default hS d s m ho] at q
        rw [hm]
        cases r <;> exact ⟨m, q, rfl, rfl⟩
      | group s =>
        obtain ⟨m, hm, ho⟩ := hv
        have := r5 (.msg (C.schema s).default) (fun sub hk => by
          rcases hk with hk | hk <;> cases hk; exact shape_default hS d s)
        obtain ⟨m', q, e'⟩ := this
        simp only [Val.asMsg, hm] at e' q
        cases e'
        rw [merge_default hS d s m ho] at q
        rw [hm, hg s rfl]
        cases r <;> exact ⟨m, q, rfl, rfl⟩
    have elemOk : ∀ e ∈ es, valOk C (objOk C d) k e.2 → mergeElem C mv k e.2 = e.2 := fun e _ hv => mergeElem_ok (merge_default hS d) hv
    cases card with
    | implicit dflt =>
      obtain ⟨v, rfl, hv, -⟩ := hes
      have em : member C isDefault (encode C isDefault d) (.field n k (.implicit dflt)) [(0, v)] =
          if isDefault k dflt v then [] else record C (encode C isDefault d) n k v := by
        simp [member]
      rw [em] at hl ⊢
      by_cases hdv : isDefault k dflt v = true
      · rw [if_pos hdv]
        exact ⟨[], trivial, rfl, by simp, fun dest _ => by simp only [mergeSlot, if_pos hdv]; rfl⟩
      · rw [if_neg hdv] at hl ⊢
        obtain ⟨r, r1, r2, r3, r4, r5⟩ := single v hv hl
        refine ⟨[r], ⟨r1, trivial⟩, by rw [rawOne, r2], by simpa using good r r3, fun dest hd => ?_⟩
        simp only [mergeSlot, if_neg hdv]
        exact ⟨_, ⟨_, r5 dest hd, rfl, rfl⟩, rfl⟩
    | always dflt =>
      obtain ⟨v, rfl, hv⟩ := hes
      have em : member C isDefault (encode C isDefault d) (.field n k (.always dflt)) [(0, v)] = record C (encode C isDefault d) n k v := by
        cases k <;> simp [member]
      rw [em] at hl ⊢
      obtain ⟨r, r1, r2, r3, r4, r5⟩ := single v hv hl
      refine ⟨[r], ⟨r1, trivial⟩, by rw [rawOne, r2], by simpa using good r r3, fun dest hd => ?_⟩
      simp only [mergeSlot]
      refine ⟨_, ?_, rfl⟩
      have := r5 dest hd
      cases k with
      | scalar sc =>
        obtain ⟨q1, q2, q3⟩ := r4 sc rfl
        exact ⟨v, q1, q2, by rw [q3, mergeVal_scalar], rfl⟩
      | msg s => exact ⟨_, this, rfl, rfl⟩
      | group s => exact ⟨_, this, rfl, rfl⟩
    | optional =>
      rcases hes with rfl | ⟨v, rfl, hv⟩
      · exact ⟨[], trivial, by cases k <;> rfl, by simp, fun dest _ => by rw [mergeSlot_nil]; rfl⟩
      have em : member C isDefault (encode C isDefault d) (.field n k .optional) [(0, v)] = record C (encode C isDefault d) n k v := by
        cases k <;> simp [member]
      rw [em] at hl ⊢
      obtain ⟨r, r1, r2, r3, r4, r5⟩ := single v hv hl
      refine ⟨[r], ⟨r1, trivial⟩, by rw [rawOne, r2], by simpa using good r r3, fun dest hd => ?_⟩
      simp only [mergeSlot]
      refine ⟨_, ?_, rfl⟩
      have := r5 dest hd
      cases k with
      | scalar sc =>
        obtain ⟨q1, q2, q3⟩ := r4 sc rfl
        exact ⟨v, q1, by rw [if_pos q2]; exact ⟨by rw [q3, mergeVal_scalar], rfl⟩⟩
      | msg s => exact ⟨_, this, rfl, rfl⟩
      | group s => exact ⟨_, this, rfl, rfl⟩
    | repeated packed =>
      have hes' : ∀ e ∈ es, e.1 = 0 ∧ valOk C (objOk C d) k e.2 := hes
      have emap : es.map (fun e => (0, mergeElem C mv k e.2)) = es.map (fun e => ((0 : Nat), e.2)) :=
        List.map_congr_left (fun e he => by rw [elemOk e he (hes' e he).2])
      have unpacked : (es.flatMap (fun e => record C (encode C isDefault d) n k e.2)).length < 2 ^ 32 →
          ∃ rs, wfAll rs ∧ rawAll rs = es.flatMap (fun e => record C (encode C isDefault d) n k e.2) ∧
            (∀ r ∈ rs, goodNum (.field n k (.repeated packed)) r) ∧
            ∀ dest, quiet C (sem C d) (.field n k (.repeated packed)) rs dest (mergeSlot C mv (.field n k (.repeated packed)) dest es) := by
        intro hl
        obtain ⟨rs, q1, q2, q3, q4⟩ := quiet_list (S := sem C d) (sd := .field n k (.repeated packed)) (P := fun r => tagNumber r.tag = n)
          (enc := fun e => record C (encode C isDefault d) n k e.2) (f := fun dest e => dest ++ [(0, e.2)])
          (elems false hes' (by simp) (by simp) hl)
        refine ⟨rs, q1, q2, fun r hr => good r (q3 r hr), fun dest => ?_⟩
        rw [mergeSlot_repeated, emap, ← foldl_append_map]
        exact q4 dest
      have viaUn : member C isDefault (encode C isDefault d) (.field n k (.repeated packed)) es =
          es.flatMap (fun e => record C (encode C isDefault d) n k e.2) →
          ∃ rs, wfAll rs ∧ rawAll rs = member C isDefault (encode C isDefault d) (.field n k (.repeated packed)) es ∧
            (∀ r ∈ rs, goodNum (.field n k (.repeated packed)) r) ∧
            ∀ dest, shapeSlot C (shape C d) (.field n k (.repeated packed)) dest →
              quiet C (sem C d) (.field n k (.repeated packed)) rs dest (mergeSlot C mv (.field n k (.repeated packed)) dest es) := by
        intro e
        rw [e] at hl ⊢
        obtain ⟨rs, q1, q2, q3, q4⟩ := unpacked hl
        exact ⟨rs, q1, q2, q3, fun dest _ => q4 dest⟩
      cases packed with
      | false => exact viaUn (by cases k <;> rfl)
      | true =>
        cases k with
        | msg s => exact viaUn rfl
        | group s => exact viaUn rfl
        | scalar sc =>
          by_cases hp : sc.packable = true
          · have em : member C isDefault (encode C isDefault d) (.field n (.scalar sc) (.repeated true)) es =
                if es = [] then [] else lenRecord n (es.flatMap (fun e => scalar sc e.2)) := by
              simp [member, hp]
            rw [em] at hl ⊢
            by_cases he : es = []
            · subst he
              rw [if_pos rfl]
              exact ⟨[], trivial, rfl, by simp, fun dest _ => by rw [mergeSlot_nil]; rfl⟩
            · rw [if_neg he] at hl ⊢
              have hle : (es.flatMap (fun e => scalar sc e.2)).length < 2 ^ 32 := by
                simp only [lenRecord, List.length_append] at hl
                exact Nat.lt_of_le_of_lt (Nat.le_add_left _ _) hl
              obtain ⟨r, e, r1, r2, r3⟩ := len_rec h25 hle
              refine ⟨[r], ⟨r1, trivial⟩, by rw [rawOne, r2], by simpa using good r r3, fun dest _ => ?_⟩
              rw [mergeSlot_repeated, emap]
              refine ⟨_, ?_, rfl⟩
              subst e
              show (if sc.packable then packedEff n sc _ dest _ [] else _)
              rw [if_pos hp]
              have hvs := packed_written (C := C) hp (vs := es.map Prod.snd) (by
                intro v hv
                obtain ⟨e, h1, rfl⟩ := List.mem_map.1 hv
                exact (hes' e h1).2)
              rw [List.flatMap_map] at hvs
              unfold packedEff
              rw [if_neg]
              · refine ⟨_, hvs, ?_, ?_⟩
                · rw [List.filter_eq_self.2]
                  · simp
                  · intro v hv
                    obtain ⟨e, h1, rfl⟩ := List.mem_map.1 hv
                    exact (valid_of_ok (hes' e h1).2).1
                · rw [List.filter_eq_nil_iff.2]
                  · rfl
                  · intro v hv
                    obtain ⟨e, h1, rfl⟩ := List.mem_map.1 hv
                    simp [(valid_of_ok (hes' e h1).2).1]
              · intro hnil
                obtain ⟨x, l, rfl⟩ := List.exists_cons_of_ne_nil he
                rw [List.flatMap_cons] at hnil
                exact scalar_ne _ (List.append_eq_nil_iff.1 hnil).1
          · refine viaUn ?_
            simp [member, hp]
    | map unique =>
      obtain ⟨eid, rfl, -⟩ := hS.maps id n k unique hsd
      have em : member C isDefault (encode C isDefault d) (.field n (.msg eid) (.map unique)) es =
          es.flatMap (fun e => record C (encode C isDefault d) n (.msg eid) e.2) := rfl
      rw [em] at hl ⊢
      have hes' : ∀ e ∈ es, e.1 = 0 ∧ valOk C (objOk C d) (.msg eid) e.2 := by
        cases unique
        · exact hes
        · exact hes.1
      obtain ⟨rs, q1, q2, q3, q4⟩ := quiet_list (S := sem C d) (sd := .field n (.msg eid) (.map unique)) (P := fun r => tagNumber r.tag = n)
          (enc := fun e => record C (encode C isDefault d) n (.msg eid) e.2)
          (f := fun dest e => if unique then insertOrAssign e.2 dest else dest ++ [(0, e.2)])
          (elems unique hes' (by simp) (by simp) hl)
      refine ⟨rs, q1, q2, fun r hr => good r (q3 r hr), fun dest hd => ?_⟩
      have := q4 dest
      cases unique with
      | true =>
        rw [mergeSlot_map, mergeMap_eq hd.1 hes.2 hd.2 (fun p hp => (hes' p hp).1), ← foldl_insert]
        exact this
      | false =>
        rw [mergeSlot_seq]
        have e : es = es.map (fun e => ((0 : Nat), e.2)) := by
          conv => lhs; rw [← List.map_id es]
          apply List.map_congr_left
          rintro ⟨a, v⟩ he
          rw [← (hes' _ he).1]; rfl
        rw [show dest ++ es = dest ++ es.map (fun e => ((0 : Nat), e.2)) from by rw [← e], ← foldl_append_map]
        exact this

/-! ### One message -/

theorem slots_level (hS : schemaOk C) {mv d} (L : Below C mv d) {id : Nat} : ∀ {pre sds : List SlotD} {ss : List (List (Nat × Val))},
    (C.schema id).slots = pre ++ sds → ss.length = sds.length → (∀ p ∈ sds.zip ss, slotOk true C (objOk C d) p.1 p.2) →
    ((sds.zip ss).flatMap (fun p => member C isDefault (encode C isDefault d) p.1 p.2)).length < 2 ^ 32 →
    ∃ rs, wfAll rs ∧ rawAll rs = (sds.zip ss).flatMap (fun p => member C isDefault (encode C isDefault d) p.1 p.2) ∧
      ∀ (done ds : List (List (Nat × Val))) unk last, done.length = pre.length → ds.length = sds.length →
        (∀ p ∈ sds.zip ds, shapeSlot C (shape C d) p.1 p.2) →
        fold C (sem C d) (C.schema id) last rs ⟨done ++ ds, unk⟩ ⟨done ++ mergeSlots C mv sds ds ss, unk⟩
  | pre, [], [], _, _, _, _ => ⟨[], trivial, rfl, fun done ds unk last _ _ _ => by rw [mergeSlots_nil]; rfl⟩
  | pre, [], _ :: _, _, h, _, _ => by simp at h
  | pre, _ :: _, [], _, h, _, _ => by simp at h
  | pre, sd :: sds, s :: ss, hD, hlen, hok, hl => by
    rw [List.zip_cons_cons, List.flatMap_cons, List.length_append] at hl
    have hsd : sd ∈ (C.schema id).slots := by rw [hD]; simp
    have hi : (C.schema id).slots[pre.length]? = some sd := by rw [hD]; simp
    obtain ⟨rs1, a1, a2, a3, a4⟩ := slot_quiet hS L hsd (hok (sd, s) (by simp)) (Nat.lt_of_le_of_lt (Nat.le_add_right _ _) hl)
    obtain ⟨rs2, b1, b2, b3⟩ := slots_level hS L (pre := pre ++ [sd]) (sds := sds) (ss := ss) (by rw [hD]; simp) (by simpa using hlen)
      (fun p hp => hok p (by simp [hp])) (Nat.lt_of_le_of_lt (Nat.le_add_left _ _) hl)
    refine ⟨rs1 ++ rs2, wfAll_append.2 ⟨a1, b1⟩, ?_, ?_⟩
    · rw [rawAll_append, a2, b2, List.zip_cons_cons, List.flatMap_cons]
    intro done ds unk last hdone hds hsh
    obtain ⟨d0, ds, rfl⟩ : ∃ d0 ds', ds = d0 :: ds' := by
      cases ds with
      | nil => simp at hds
      | cons x l => exact ⟨x, l, rfl⟩
    have hlen2 : (⟨done ++ d0 :: ds, unk⟩ : Msg).slots.length = (C.schema id).slots.length := by
      rw [hD]; simp only [List.length_append, List.length_cons] at *; omega
    have hget : (⟨done ++ d0 :: ds, unk⟩ : Msg).get pre.length = d0 := by
      simp [MsgOf.get, ← hdone]
    have hput : (⟨done ++ d0 :: ds, unk⟩ : Msg).put pre.length (mergeSlot C mv sd d0 s) = ⟨(done ++ [mergeSlot C mv sd d0 s]) ++ ds, unk⟩ := by
      simp [MsgOf.put, ← hdone]
    have f1 := fold_quiet (C := C) (S := sem C d) hi (last := last) (m := ⟨done ++ d0 :: ds, unk⟩) (rs := rs1) (es' := mergeSlot C mv sd d0 s) hlen2
      (fun r hr => by
        obtain ⟨g1, g2⟩ := a3 r hr
        refine ⟨?_, g2⟩
        rw [ofMember_eq (hS.distinct id) hi, ← tagNumber_toNat, slotKind_has]
        exact g1)
      (by rw [hget]; exact a4 d0 (hsh (sd, d0) (by simp)))
    rw [hput] at f1
    have f2 := b3 (done ++ [mergeSlot C mv sd d0 s]) ds unk (lastOf (C.schema id) last rs1) (by simp [hdone]) (by simpa using hds)
      (fun p hp => hsh p (by simp [hp]))
    rw [mergeSlots_cons]
    rw [List.append_assoc _ _ (mergeSlots _ _ _ _ _), List.singleton_append] at f2
    exact fold_append.2 ⟨_, f1, f2⟩

/-- Unknown records with minimal tags are kept as they are. -/
theorem unk_run {S : Sem} {D : MsgD} : ∀ {rs : List Rec}, (∀ r ∈ rs, tagNum r.tag ≠ 0 ∧ fieldKind D (tagNum r.tag) = none ∧ minimalTag r ∧ r.depth ≤ S.depth) →
    ∀ (last) (m : Msg), fold C S D last rs m (rs.foldl (fun m r => m.addUnk D.unk (tagNumber r.tag) r.raw) m)
  | [], _, _, _ => rfl
  | r :: rs, h, last, m => by
    obtain ⟨h1, h2, h3, h4⟩ := h r (by simp)
    rw [← tagNumber_toNat, fieldKind_none] at h2
    refine ⟨_, (step_unknown h2).2 ⟨?_, h4, rfl⟩, ?_⟩
    · intro e
      rw [← tagNumber_toNat, e] at h1
      exact h1 rfl
    · rw [captured_minimal h3]
      exact unk_run (fun q hq => h q (by simp [hq])) _ _

theorem addUnk_run {mode : UnkMode} {key : Nat} (hm : mode ≠ .none) : ∀ {rs : List Rec} (m : Msg), rs ≠ [] → (∀ r ∈ rs, keyOf mode (tagNum r.tag) = key) →
    rs.foldl (fun m r => m.addUnk mode (tagNumber r.tag) r.raw) m = ⟨m.slots, unkAppend key (rawAll rs) m.unk⟩
  | [], m, h, _ => absurd rfl h
  | r :: rs, m, _, hk => by
    have one : m.addUnk mode (tagNumber r.tag) r.raw = ⟨m.slots, unkAppend key r.raw m.unk⟩ := by
      have := hk r (by simp)
      cases mode with
      | none => exact absurd rfl hm
      | bytes => simp only [keyOf] at this; subst this; rfl
      | ext => simp only [keyOf] at this; subst this; simp only [MsgOf.addUnk, tagNumber_toNat]
    rw [List.foldl_cons, one]
    by_cases he : rs = []
    · subst he; simp [rawAll, Rec.raw]
    · rw [addUnk_run hm _ he (fun q hq => hk q (by simp [hq]))]
      simp only [unkAppend_twice, rawAll_cons]; rfl

theorem unk_level {d : Nat} {D : MsgD} {unk : List (Nat × List Byte)} (h : unkOk D d unk) :
    ∃ rs, wfAll rs ∧ rawAll rs = unk.flatMap Prod.snd ∧
      ∀ last (m : Msg), fold C (sem C d) D last rs m ⟨m.slots, mergeUnk D.unk m.unk unk⟩ := by
  have run : ∀ {rs : List Rec} {key : Nat}, D.unk ≠ .none → unknownRecs D d rs → (∀ r ∈ rs, keyOf D.unk (tagNum r.tag) = key) →
      ∀ last (m : Msg), fold C (sem C d) D last rs m ⟨m.slots, unkAppend key (rawAll rs) m.unk⟩ := by
    intro rs key hm hr hk last m
    have := unk_run (C := C) (S := sem C d) (D := D) (rs := rs) (fun r h => by
      obtain ⟨a, b, c, e⟩ := hr.2.2 r h
      exact ⟨a, b, c, by rw [sem_depth]; exact e⟩) last m
    rwa [addUnk_run hm m hr.1 hk] at this
  unfold unkOk at h
  split at h
  · rename_i e
    subst h
    exact ⟨[], trivial, rfl, fun _ m => by rw [e]; rfl⟩
  · rename_i e
    rcases h with rfl | ⟨rs, rfl, hr⟩
    · exact ⟨[], trivial, rfl, fun _ m => by rw [e]; rfl⟩
    · refine ⟨rs, hr.2.1, by simp, fun last m => ?_⟩
      have := run (key := 0) (by rw [e]; simp) hr (fun r _ => by rw [e]; rfl) last m
      rw [e]
      exact this
  · rename_i e
    have : ∀ unk : List (Nat × List Byte), (∀ u ∈ unk, ∃ rs, u.2 = rawAll rs ∧ unknownRecs D d rs ∧ ∀ r ∈ rs, tagNum r.tag = u.1) →
        ∃ rs, wfAll rs ∧ rawAll rs = unk.flatMap Prod.snd ∧
          ∀ last (m : Msg), fold C (sem C d) D last rs m ⟨m.slots, unk.foldl (fun acc u => unkAppend u.1 u.2 acc) m.unk⟩ := by
      intro unk
      induction unk with
      | nil => intro _; exact ⟨[], trivial, rfl, fun _ _ => rfl⟩
      | cons u unk ih =>
        intro h
        obtain ⟨rs1, e1, hr, hk⟩ := h u (by simp)
        obtain ⟨rs2, i1, i2, i3⟩ := ih (fun x hx => h x (by simp [hx]))
        refine ⟨rs1 ++ rs2, wfAll_append.2 ⟨hr.2.1, i1⟩, by rw [rawAll_append, ← e1, i2, List.flatMap_cons], fun last m => ?_⟩
        have f1 := run (key := u.1) (by rw [e]; simp) hr (fun r h => by rw [e]; exact hk r h) last m
        have f2 := i3 (lastOf D last rs1) ⟨m.slots, unkAppend u.1 (rawAll rs1) m.unk⟩
        refine fold_append.2 ⟨_, f1, ?_⟩
        rw [List.foldl_cons, e1]
        exact f2
    obtain ⟨rs, q1, q2, q3⟩ := this unk h.2
    exact ⟨rs, q1, q2, fun last m => by rw [e]; exact q3 last m⟩

theorem record_head (enc : Nat → Msg → List Byte) (k : Kind) (v : Val) : ∃ b0 l, record C enc 1 k v = b0 :: l ∧ b0 >>> 3 = 1#8 := by
  have t : ∀ w, w < 8 → ∃ b0, tag 1 w = [b0] ∧ b0 >>> 3 = 1#8 := by
    intro w hw
    have : (1#32).toNat * 8 + w < 128 := by simp; omega
    refine ⟨BitVec.ofNat 8 ((1#32).toNat * 8 + w), by unfold tag leb; exact if_pos this, ?_⟩
    have : ∀ w : Fin 8, BitVec.ofNat 8 ((1#32).toNat * 8 + w.val) >>> 3 = 1#8 := by decide
    exact this ⟨w, hw⟩
  cases k with
  | scalar sc =>
    obtain ⟨b, e, h⟩ := t (wireTypeOf sc) (by cases sc <;> simp [wireTypeOf])
    exact ⟨b, _, by simp only [record]; rw [e]; rfl, h⟩
  | msg id =>
    obtain ⟨b, e, h⟩ := t 2 (by decide)
    exact ⟨b, _, by simp only [record, lenRecord]; rw [e]; rfl, h⟩
  | group id =>
    obtain ⟨b, e, h⟩ := t 3 (by decide)
    exact ⟨b, _, by simp only [record]; rw [e]; rfl, h⟩

/-- Records of the encoding, at one level: reading them from any run state merges. -/
theorem msg_records (hS : schemaOk C) {mv d} (L : Below C mv d) {id : Nat} {b : Msg} (hb : objOk C (d + 1) id b)
    (hl : (encode C isDefault (d + 1) id b).length < 2 ^ 32) :
    ∃ rs, wfAll rs ∧ rawAll rs = encode C isDefault (d + 1) id b ∧
      ∀ last a, shape C (d + 1) id a → fold C (sem C d) (C.schema id) last rs a (mergeMsg C mv id a b) := by
  obtain ⟨h1, h2, h3⟩ := hb
  simp only [encode, List.length_append] at hl ⊢
  obtain ⟨rs1, a1, a2, a3⟩ := slots_level hS L (id := id) (pre := []) (ss := b.slots) rfl h1 h2 (Nat.lt_of_le_of_lt (Nat.le_add_right _ _) hl)
  obtain ⟨rs2, b1, b2, b3⟩ := unk_level (C := C) h3
  refine ⟨rs1 ++ rs2, wfAll_append.2 ⟨a1, b1⟩, by rw [rawAll_append, a2, b2], fun last a ha => ?_⟩
  have f1 := a3 [] a.slots a.unk last rfl ha.1 ha.2
  have f2 := b3 (lastOf (C.schema id) last rs1) ⟨[] ++ mergeSlots C mv (C.schema id).slots a.slots b.slots, a.unk⟩
  rw [mergeMsg_eq]
  exact fold_append.2 ⟨_, f1, f2⟩

theorem below (hS : schemaOk C) (mv : Bool) : ∀ d, Below C mv d
  | 0, _, _, h, _ => h.elim
  | d + 1, id, b, hb, hl => by
    obtain ⟨rs, r1, r2, r3⟩ := msg_records hS (below hS mv d) hb hl
    have hE : (C.schema id).isEntry = true → ∃ b0 l, encode C isDefault (d + 1) id b = b0 :: l ∧ b0 >>> 3 = 1#8 := by
      intro he
      obtain ⟨k, dflt, rest, hs⟩ := hS.entries id he
      obtain ⟨h1, h2, h3⟩ := hb
      rw [hs] at h1 h2
      obtain ⟨s, ss, e⟩ : ∃ s ss, b.slots = s :: ss := by
        cases h : b.slots with
        | nil => rw [h] at h1; simp at h1
        | cons s ss => exact ⟨s, ss, rfl⟩
      rw [e] at h2
      obtain ⟨v, ev, -⟩ := h2 (.field 1 k (.always dflt), s) (by simp)
      simp only at ev
      obtain ⟨b0, l, e1, e2⟩ := record_head (C := C) (encode C isDefault d) k v
      suffices h : ∃ tl, encode C isDefault (d + 1) id b = b0 :: tl from h.elim fun tl h => ⟨b0, tl, h, e2⟩
      simp only [encode, hs, e, ev, List.zip_cons_cons, List.flatMap_cons]
      have : member C isDefault (encode C isDefault d) (.field 1 k (.always dflt)) [(0, v)] = record C (encode C isDefault d) 1 k v := by
        cases k <;> simp [member]
      rw [this, e1]
      exact ⟨_, rfl⟩
    refine ⟨rs, r1, r2, hE, fun a ha => ⟨r3 none a ha, rs, r1, r2, ?_, r3 none a ha⟩⟩
    intro he b1 l1 e
    obtain ⟨b0, l, e1, e2⟩ := hE he
    rw [e1] at e
    cases e
    exact e2

end
end HppProto
