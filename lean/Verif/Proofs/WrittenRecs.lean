import Verif.Proofs.RoundTrip
/-! The bytes of a written member are records of its field number, with minimal tags and
bounded nesting of groups. -/
namespace HppProto
open Spec

/-- Records whose field numbers satisfy `p`, with minimal tags and at most `d` levels of groups. -/
def recsOf (p : Nat → Prop) (d : Nat) (rs : List Rec) : Prop :=
  wfAll rs ∧ ∀ r ∈ rs, p (tagNum r.tag) ∧ minimalTag r ∧ r.depth ≤ d

theorem depthAll_le {d : Nat} : ∀ {rs : List Rec}, (∀ r ∈ rs, r.depth ≤ d) → depthAll rs ≤ d
  | [], _ => Nat.zero_le _
  | r :: rs, h => by
    simp only [depthAll]
    exact Nat.max_le.2 ⟨h r (by simp), depthAll_le (fun x hx => h x (by simp [hx]))⟩

theorem recsOf_append {p d a b} (ha : recsOf p d a) (hb : recsOf p d b) : recsOf p d (a ++ b) :=
  ⟨wfAll_append.2 ⟨ha.1, hb.1⟩, fun r hr => (List.mem_append.1 hr).elim (ha.2 r) (hb.2 r)⟩

theorem recsOf_mono {p q : Nat → Prop} {d d' rs} (h : recsOf p d rs) (hp : ∀ n, p n → q n) (hd : d ≤ d') : recsOf q d' rs :=
  ⟨h.1, fun r hr => ⟨hp _ (h.2 r hr).1, (h.2 r hr).2.1, Nat.le_trans (h.2 r hr).2.2 hd⟩⟩

theorem recsOf_flatMap {α} {p : Nat → Prop} {d : Nat} {f : α → List Byte} : ∀ {l : List α},
    (∀ x ∈ l, ∃ rs, recsOf p d rs ∧ rawAll rs = f x) → ∃ rs, recsOf p d rs ∧ rawAll rs = l.flatMap f
  | [], _ => ⟨[], ⟨trivial, by simp⟩, rfl⟩
  | x :: l, h => by
    obtain ⟨r1, a1, a2⟩ := h x (by simp)
    obtain ⟨r2, b1, b2⟩ := recsOf_flatMap (f := f) (l := l) (fun y hy => h y (by simp [hy]))
    exact ⟨r1 ++ r2, recsOf_append a1 b1, by rw [rawAll_append, a2, b2, List.flatMap_cons]⟩

theorem tagNum_number (t : BitVec 32) : tagNum t = (tagNumber t).toNat := by
  simp [tagNum, tagNumber, Nat.shiftRight_eq_div_pow]

variable {C : Cfg}

/-- Encodings of objects of `d` levels are records with fewer levels of groups. -/
def Written (C : Cfg) (d : Nat) : Prop := ∀ id b, objLike false C d id b → (encode C isDefault d id b).length < 2 ^ 32 →
  ∃ rs, recsOf (fun _ => True) (d - 1) rs ∧ rawAll rs = encode C isDefault d id b

theorem written_value {d : Nat} (L : Written C d) {k : Kind} {n : BitVec 32} (hn : n.toNat < 2 ^ 25) (h0 : 0 < n.toNat)
    {v : Val} (hv : valOk C (objLike false C d) k v) (hl : (record C (encode C isDefault d) n k v).length < 2 ^ 32) :
    ∃ rs, recsOf (· = n.toNat) d rs ∧ rawAll rs = record C (encode C isDefault d) n k v := by
  have one : ∀ {r : Rec}, r.wf → tagNumber r.tag = n → minimalTag r → r.depth ≤ d → r.raw = record C (encode C isDefault d) n k v →
      ∃ rs, recsOf (· = n.toNat) d rs ∧ rawAll rs = record C (encode C isDefault d) n k v := by
    intro r a1 a2 a3 a4 a5
    refine ⟨[r], ⟨⟨a1, trivial⟩, ?_⟩, ?_⟩
    · intro x hx
      cases List.mem_singleton.1 hx
      exact ⟨by rw [tagNum_number, a2], a3, a4⟩
    · rw [← a5]; simp [rawAll, Rec.raw]
  cases k with
  | scalar sc =>
    have hl' : (scalar sc v).length < 2 ^ 32 := by
      simp only [record, List.length_append] at hl
      exact Nat.lt_of_le_of_lt (Nat.le_add_left _ _) hl
    obtain ⟨r, r1, r2, r3, r4, r5, -⟩ := scalar_rec hn h0 hv hl'
    refine one r1 r3 r4 ?_ r2
    cases r with
    | group t h b e => cases sc <;> simp [recScalar] at r5
    | _ => exact Nat.zero_le _
  | msg sub =>
    obtain ⟨m, rfl, hm⟩ := hv
    simp only [record, Val.asMsg] at hl ⊢
    have hle : (encode C isDefault d sub m).length < 2 ^ 32 := by
      simp only [lenRecord, List.length_append] at hl
      exact Nat.lt_of_le_of_lt (Nat.le_add_left _ _) hl
    obtain ⟨r, e, r1, r2, r3⟩ := len_rec hn hle
    obtain ⟨-, -, -, -, t4⟩ := tag_read (wt := wtLen) (w := 2) hn rfl (by omega)
    refine one r1 r3 ?_ ?_ r2
    · subst e; exact t4
    · subst e; exact Nat.zero_le _
  | group sub =>
    obtain ⟨m, rfl, hm⟩ := hv
    simp only [record, Val.asMsg] at hl ⊢
    have hle : (encode C isDefault d sub m).length < 2 ^ 32 := by
      simp only [List.length_append] at hl
      refine Nat.lt_of_le_of_lt ?_ hl
      rw [Nat.add_comm (tag n 3).length, Nat.add_assoc]
      exact Nat.le_add_right _ _
    obtain ⟨rs, w1, w2⟩ := L sub m hm hle
    obtain ⟨t1, t2, t3, t5, t4⟩ := tag_read (wt := wtSGroup) (w := 3) hn rfl (by omega)
    obtain ⟨u1, u2, -, u5, -⟩ := tag_read (wt := wtEGroup) (w := 4) hn rfl (by omega)
    refine one (r := .group (makeTag n wtSGroup) (tag n 3) rs (tag n 4)) ?_ t3 t4 ?_ ?_
    · unfold Rec.wf
      exact ⟨t1, t2, w1.1, _, u1, u2, u5.trans t5.symm⟩
    · simp only [Rec.depth]
      have := depthAll_le (fun r hr => (w1.2 r hr).2.2)
      cases d with
      | zero => exact hm.elim
      | succ d => simp only [Nat.add_sub_cancel] at this; omega
    · simp only [Rec.raw, Rec.head, Rec.payload, w2, List.append_assoc, record, Val.asMsg]

theorem written_flat {d : Nat} (L : Written C d) {k : Kind} {n : BitVec 32} (hn : n.toNat < 2 ^ 25) (h0 : 0 < n.toNat)
    {es : List (Nat × Val)} (hv : ∀ e ∈ es, valOk C (objLike false C d) k e.2)
    (hl : (es.flatMap (fun e => record C (encode C isDefault d) n k e.2)).length < 2 ^ 32) :
    ∃ rs, recsOf (· = n.toNat) d rs ∧ rawAll rs = es.flatMap (fun e => record C (encode C isDefault d) n k e.2) :=
  recsOf_flatMap (fun e he => written_value L hn h0 (hv e he)
    (Nat.lt_of_le_of_lt (len_flatMap_le (f := fun e => record C (encode C isDefault d) n k e.2) he) hl))

/-- A written field. -/
theorem written_field {d : Nat} (L : Written C d) {n : BitVec 32} {k : Kind} {card : Card} (hn : n.toNat < 2 ^ 25) (h0 : 0 < n.toNat)
    {es : List (Nat × Val)} (hv : slotOk false C (objLike false C d) (.field n k card) es)
    (hl : (member C isDefault (encode C isDefault d) (.field n k card) es).length < 2 ^ 32) :
    ∃ rs, recsOf (· = n.toNat) d rs ∧ rawAll rs = member C isDefault (encode C isDefault d) (.field n k card) es := by
  cases card with
  | implicit dflt =>
    obtain ⟨v, rfl, h, -⟩ := hv
    simp only [member, List.flatMap_cons, List.flatMap_nil, List.append_nil] at hl ⊢
    split at hl
    · rename_i hd; rw [if_pos hd]; exact ⟨[], ⟨trivial, by simp⟩, rfl⟩
    · rename_i hd; rw [if_neg hd]; exact written_value L hn h0 h hl
  | always dflt =>
    obtain ⟨v, rfl, h⟩ := hv
    have e : ∀ es, member C isDefault (encode C isDefault d) (.field n k (.always dflt)) es =
      es.flatMap (fun e => record C (encode C isDefault d) n k e.2) := fun es => by simp only [member]
    rw [e] at hl ⊢
    exact written_flat L hn h0 (fun e he => by cases List.mem_singleton.1 he; exact h) hl
  | optional =>
    have e : ∀ es, member C isDefault (encode C isDefault d) (.field n k .optional) es =
      es.flatMap (fun e => record C (encode C isDefault d) n k e.2) := fun es => by simp only [member]
    rw [e] at hl ⊢
    refine written_flat L hn h0 (fun x hx => ?_) hl
    rcases hv with rfl | ⟨v, rfl, h⟩
    · cases hx
    · cases List.mem_singleton.1 hx; exact h
  | map u =>
    have e : ∀ es, member C isDefault (encode C isDefault d) (.field n k (.map u)) es =
      es.flatMap (fun e => record C (encode C isDefault d) n k e.2) := fun es => by simp only [member]
    rw [e] at hl ⊢
    refine written_flat L hn h0 (fun x hx => ?_) hl
    cases u with
    | true => exact (hv.1 x hx).2
    | false => exact (hv x hx).2
  | repeated p =>
    have hv' : ∀ e ∈ es, valOk C (objLike false C d) k e.2 := fun e he => (hv e he).2
    have plain := fun h => written_flat (es := es) L hn h0 hv' h
    cases p with
    | false =>
      have e : ∀ es, member C isDefault (encode C isDefault d) (.field n k (.repeated false)) es =
        es.flatMap (fun e => record C (encode C isDefault d) n k e.2) := fun es => by simp only [member]
      rw [e] at hl ⊢
      exact plain hl
    | true =>
      cases k with
      | scalar sc =>
        simp only [member] at hl ⊢
        split at hl
        · rename_i hp
          rw [if_pos hp]
          split at hl
          · rename_i he; rw [if_pos he]; exact ⟨[], ⟨trivial, by simp⟩, rfl⟩
          · rename_i he
            rw [if_neg he]
            have hle : (es.flatMap (fun e => scalar sc e.2)).length < 2 ^ 32 := by
              simp only [lenRecord, List.length_append] at hl
              exact Nat.lt_of_le_of_lt (Nat.le_add_left _ _) hl
            obtain ⟨r, e, r1, r2, r3⟩ := len_rec hn hle
            obtain ⟨-, -, -, -, t4⟩ := tag_read (wt := wtLen) (w := 2) hn rfl (by omega)
            refine ⟨[r], ⟨⟨r1, trivial⟩, ?_⟩, by rw [← r2]; simp [rawAll, Rec.raw]⟩
            intro x hx
            cases List.mem_singleton.1 hx
            refine ⟨by rw [tagNum_number, r3], ?_, ?_⟩
            · subst e; exact t4
            · subst e; exact Nat.zero_le _
        · rename_i hp
          rw [if_neg hp]
          exact plain hl
      | msg sub =>
        have e : ∀ es, member C isDefault (encode C isDefault d) (.field n (.msg sub) (.repeated true)) es =
          es.flatMap (fun e => record C (encode C isDefault d) n (.msg sub) e.2) := fun es => by simp only [member]
        rw [e] at hl ⊢
        exact plain hl
      | group sub =>
        have e : ∀ es, member C isDefault (encode C isDefault d) (.field n (.group sub) (.repeated true)) es =
          es.flatMap (fun e => record C (encode C isDefault d) n (.group sub) e.2) := fun es => by simp only [member]
        rw [e] at hl ⊢
        exact plain hl

theorem number_range (hS : schemaOk C) {id : Nat} {sd : SlotD} {n : Nat} (h : sd ∈ (C.schema id).slots) (hk : (slotKind n sd).isSome) :
    0 < n ∧ n < 2 ^ 25 := by
  apply hS.range id n
  unfold fieldKind
  rw [List.findSome?_isSome_iff]
  exact ⟨sd, h, hk⟩

theorem written_member (hS : schemaOk C) {d : Nat} (L : Written C d) {id : Nat} {sd : SlotD} (hd : sd ∈ (C.schema id).slots)
    {es : List (Nat × Val)} (hv : slotOk false C (objLike false C d) sd es)
    (hl : (member C isDefault (encode C isDefault d) sd es).length < 2 ^ 32) :
    ∃ rs, recsOf (fun _ => True) d rs ∧ rawAll rs = member C isDefault (encode C isDefault d) sd es := by
  cases sd with
  | field n k card =>
    obtain ⟨h0, hn⟩ := number_range hS (n := n.toNat) hd (by simp [slotKind])
    obtain ⟨rs, a, b⟩ := written_field L hn h0 hv hl
    exact ⟨rs, recsOf_mono a (fun _ _ => trivial) (Nat.le_refl _), b⟩
  | oneof alts =>
    rcases hv with rfl | ⟨j, n, k, v, rfl, hj, h⟩
    · exact ⟨[], ⟨trivial, by simp⟩, rfl⟩
    · simp only [member, List.flatMap_cons, List.flatMap_nil, List.append_nil, hj] at hl ⊢
      obtain ⟨h0, hn⟩ := number_range hS (n := n.toNat) hd (by
        simp only [slotKind, Option.isSome_map, List.find?_isSome]
        exact ⟨(n, k), List.mem_of_getElem? hj, by simp⟩)
      obtain ⟨rs, a, b⟩ := written_value L hn h0 h hl
      exact ⟨rs, recsOf_mono a (fun _ _ => trivial) (Nat.le_refl _), b⟩

theorem written_unk {D : MsgD} {d : Nat} {unk : List (Nat × List Byte)} (h : unkOk D d unk) :
    ∃ rs, recsOf (fun _ => True) d rs ∧ rawAll rs = unk.flatMap Prod.snd := by
  have one : ∀ rs, unknownRecs D d rs → recsOf (fun _ => True) d rs :=
    fun rs hr => ⟨hr.2.1, fun r h => ⟨trivial, (hr.2.2 r h).2.2.1, (hr.2.2 r h).2.2.2⟩⟩
  unfold unkOk at h
  split at h
  · subst h; exact ⟨[], ⟨trivial, by simp⟩, rfl⟩
  · rcases h with rfl | ⟨rs, rfl, hr⟩
    · exact ⟨[], ⟨trivial, by simp⟩, rfl⟩
    · exact ⟨rs, one rs hr, by simp⟩
  · refine recsOf_flatMap (fun u hu => ?_)
    obtain ⟨rs, e, hr, -⟩ := h.2 u hu
    exact ⟨rs, one rs hr, e.symm⟩

theorem written (hS : schemaOk C) : ∀ d, Written C d
  | 0, _, _, h, _ => h.elim
  | d + 1, id, b, hb, hl => by
    obtain ⟨h1, h2, h3⟩ := hb
    simp only [encode, List.length_append] at hl ⊢
    have hl1 := Nat.lt_of_le_of_lt (Nat.le_add_right _ _) hl
    obtain ⟨r1, a1, a2⟩ := recsOf_flatMap (p := fun _ => True) (d := d) (l := (C.schema id).slots.zip b.slots)
      (f := fun p => member C isDefault (encode C isDefault d) p.1 p.2) (fun p hp =>
        written_member hS (written hS d) (List.of_mem_zip hp).1 (h2 p hp)
          (Nat.lt_of_le_of_lt (len_flatMap_le (f := fun p : SlotD × List (Nat × Val) => member C isDefault (encode C isDefault d) p.1 p.2) hp) hl1))
    obtain ⟨r2, b1, b2⟩ := written_unk h3
    exact ⟨r1 ++ r2, recsOf_append a1 b1, by rw [rawAll_append, a2, b2]⟩

end HppProto
