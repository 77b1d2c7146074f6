import Verif.Proofs.ReadMembers
import Verif.Proofs.EncodeRec
/-! Whatever is read is an object of the message type. -/
namespace HppProto
open Spec

theorem cast_cast (ty : VarTy) (v : BitVec 64) : ty.cast (ty.cast v) = ty.cast v := by
  cases ty <;> simp only [VarTy.cast]
  · congr 1; apply BitVec.eq_of_toNat_eq; simp [BitVec.toNat_setWidth, BitVec.toNat_signExtend]; split <;> omega
  · apply BitVec.eq_of_toNat_eq; simp [BitVec.toNat_setWidth]
  · congr 1; apply BitVec.eq_of_toNat_eq; simp [BitVec.toNat_setWidth, BitVec.toNat_signExtend]; split <;> omega

theorem inRange_cast (ty : VarTy) (v : BitVec 64) : inRange ty (ty.cast v) :=
  inRange_canonical.2 (cast_cast ty v)

theorem inRange_parse (ty : VarTy) (g : Mem) : inRange ty (ty.parse g).2 := by
  cases ty <;> exact inRange_cast _ _

theorem leVal_lt4 {v : List Byte} (h : v.length ≤ 4) : (leVal v).toNat < 2 ^ 32 := by
  match v with
  | [] => decide
  | [a] => simp [leVal]; omega
  | [a, b] => simp [leVal]; omega
  | [a, b, c] => simp [leVal]; omega
  | [a, b, c, d] => simp [leVal]; omega
  | _ :: _ :: _ :: _ :: _ :: _ => simp at h

theorem scalarOk_rec {C : Cfg} {sc : Scalar} {r : Rec} {w : Val} (h : recScalar C sc r = some w) (hv : sc.valid w = true) :
    scalarOk C sc (narrow sc w) := by
  cases r with
  | varint t hd v =>
    cases sc <;> simp only [recScalar] at h
    · split at h
      · cases h; exact ⟨_, rfl, inRange_parse _ _⟩
      · cases h
    · cases h; simp only [scalarOk, narrow]; split <;> simp
    · cases h
      refine ⟨_, rfl, inRange_cast .i32 _, ?_⟩
      rintro vs rfl
      exact valid_enum hv
    all_goals cases h
  | fixed t hd v =>
    cases sc <;> simp only [recScalar] at h
    all_goals first | (cases h; done) | skip
    · split at h
      · rename_i hl; cases h; exact ⟨_, rfl, leVal_lt4 (by omega)⟩
      · cases h
    · split at h
      · cases h; exact ⟨_, rfl⟩
      · cases h
  | len t hd p v =>
    cases sc <;> simp only [recScalar] at h
    all_goals first | (cases h; done) | skip
    rename_i u
    split at h
    · cases h
    · rename_i hc
      cases h
      refine ⟨_, rfl, ?_⟩
      rintro rfl
      simpa using hc
  | group t hd b e => cases h

theorem rdPacked_range {ty : VarTy} : ∀ {n bs l}, rdPacked ty n bs = some l → ∀ x ∈ l, inRange ty x
  | 0, bs, l, h, x, hx => by
    simp only [rdPacked] at h
    split at h <;> cases h
    cases hx
  | n + 1, bs, l, h, x, hx => by
    simp only [rdPacked] at h
    split at h
    · cases h; cases hx
    · split at h
      · rename_i k v hr
        cases hp : rdPacked ty n (bs.drop k) with
        | none => rw [hp] at h; cases h
        | some l' =>
          rw [hp] at h
          cases h
          rcases List.mem_cons.1 hx with rfl | hx
          · unfold rdVarint at hr
            split at hr
            · rename_i k' v' hpp
              split at hr <;> cases hr
              have := inRange_parse ty (memOf bs)
              rw [hpp] at this
              exact this
            · cases hr
          · exact rdPacked_range hp x hx
      · cases h

theorem chunksLe_lt : ∀ {n bs} {x}, x ∈ chunksLe 4 n bs → x.toNat < 2 ^ 32
  | 0, _, _, h => by cases h
  | n + 1, bs, x, h => by
    simp only [chunksLe] at h
    rcases List.mem_cons.1 h with rfl | h
    · exact leVal_lt4 (by simp; omega)
    · exact chunksLe_lt h

theorem scalarOk_packed {C : Cfg} {sc : Scalar} {v : List Byte} {vs : List Val} (h : packedVals sc v = some vs) {x : Val} (hx : x ∈ vs)
    (hv : sc.valid x = true) : scalarOk C sc x := by
  cases sc <;> simp only [packedVals] at h
  · rename_i ty
    cases hp : rdPacked ty (countTerm v) v with
    | none => rw [hp] at h; cases h
    | some l =>
      rw [hp] at h; cases h
      obtain ⟨y, hy, rfl⟩ := List.mem_map.1 hx
      exact ⟨y, rfl, rdPacked_range hp y hy⟩
  · cases hp : rdPackedBools (countTerm v) v with
    | none => rw [hp] at h; cases h
    | some l =>
      rw [hp] at h
      simp only [Option.bind] at h
      split at h
      · cases h
        obtain ⟨y, hy, rfl⟩ := List.mem_map.1 hx
        simp only [scalarOk]
        split <;> simp
      · cases h
  · cases hp : rdPacked .i64 (countTerm v) v with
    | none => rw [hp] at h; cases h
    | some l =>
      rw [hp] at h; cases h
      obtain ⟨y, hy, rfl⟩ := List.mem_map.1 hx
      refine ⟨_, rfl, inRange_cast .i32 _, ?_⟩
      rintro vs rfl
      have := valid_enum hv
      rwa [cast_cast] at this
  · split at h
    · cases h
      obtain ⟨y, hy, rfl⟩ := List.mem_map.1 hx
      exact ⟨y, rfl, chunksLe_lt hy⟩
    · cases h
  · split at h
    · cases h
      obtain ⟨y, hy, rfl⟩ := List.mem_map.1 hx
      exact ⟨y, rfl⟩
    · cases h
  · cases h

section
variable {C : Cfg} {P : Nat → Msg → Prop} {S : Sem}

theorem findAlt_kind {n : BitVec 32} {j k} : ∀ {l : List (BitVec 32 × Kind)} {j0}, findAlt n l j0 = some (j, k) →
    j0 ≤ j ∧ ∃ a, l[j - j0]? = some (a, k)
  | [], _, h => by cases h
  | b :: l, j0, h => by
    simp only [findAlt] at h
    split at h
    · cases h; exact ⟨Nat.le_refl _, b.1, by simp⟩
    · obtain ⟨i1, i2⟩ := findAlt_kind h
      refine ⟨by omega, ?_⟩
      rw [show j - j0 = (j - (j0 + 1)) + 1 by omega]
      simpa using i2

/-- A member keeps its form. -/
theorem obj_slotEff {sd : SlotD} {r : Rec} {es es' u}
    (hS : ∀ k id m m', k = .msg id ∨ k = .group id → recMsg C S k r m m' → P id m ∨ m = (C.schema id).default → P id m')
    (hmap : ∀ n k u, sd = .field n k (.map u) → ∃ eid, k = .msg eid)
    (himp : ∀ n vs dflt, sd ≠ .field n (.scalar (.enum (some vs))) (.implicit dflt))
    (hes : slotOk false C P sd es) (h : slotEff C S sd r es es' u) : slotOk false C P sd es' := by
  have value : ∀ {k : Kind} {old v : Val}, (∀ sc, k ≠ .scalar sc) →
      (∀ id, (k = .msg id ∨ k = .group id) → P id (old.asMsg (C.schema id).default) ∨ old.asMsg (C.schema id).default = (C.schema id).default) →
      recValue C S k old r v → valOk C P k v := by
    intro k old v hns ho hv
    cases k with
    | scalar sc => exact absurd rfl (hns sc)
    | msg id => obtain ⟨m, h1, rfl⟩ := hv; exact ⟨m, rfl, hS _ id _ _ (.inl rfl) h1 (ho id (.inl rfl))⟩
    | group id => obtain ⟨m, h1, rfl⟩ := hv; exact ⟨m, rfl, hS _ id _ _ (.inr rfl) h1 (ho id (.inr rfl))⟩
  have nil : ∀ {k : Kind} {id : Nat}, (k = .msg id ∨ k = .group id) → (k.zero C).asMsg (C.schema id).default = (C.schema id).default := by
    rintro k id (rfl | rfl) <;> rfl
  have old1 : ∀ {k : Kind} {id : Nat} {v : Val}, (k = .msg id ∨ k = .group id) → valOk C P k v → P id (v.asMsg (C.schema id).default) := by
    rintro k id v (rfl | rfl) ⟨m, rfl, hm⟩ <;> exact hm
  have head : ∀ {k : Kind}, (es = [] ∨ ∃ v, es = [(0, v)] ∧ valOk C P k v) → ∀ id, (k = .msg id ∨ k = .group id) →
      P id ((headVal C k es).asMsg (C.schema id).default) ∨ (headVal C k es).asMsg (C.schema id).default = (C.schema id).default := by
    rintro k (rfl | ⟨v, rfl, hv⟩) id hk
    · exact .inr (nil hk)
    · exact .inl (old1 hk hv)
  have el : ∀ {k unique}, (∀ e ∈ es, e.1 = 0 ∧ valOk C P k e.2) → elemEff C S k unique r es es' u →
      (∀ e ∈ es', e.1 = 0 ∧ valOk C P k e.2) := by
    intro k unique hes h
    cases k with
    | scalar sc =>
      obtain ⟨w, h1, h2⟩ := h
      split at h2
      · rename_i hv
        obtain ⟨rfl, -⟩ := h2
        intro e he
        rcases List.mem_append.1 he with he | he
        · exact hes e he
        · cases List.mem_singleton.1 he
          exact ⟨rfl, scalarOk_rec h1 (by rwa [valid_narrow] at hv)⟩
      · rw [h2.1]; exact hes
    | msg id =>
      obtain ⟨e, h1, -, rfl⟩ := h
      have he : valOk C P (.msg id) (.msg e) := ⟨e, rfl, hS _ id _ _ (.inl rfl) h1 (.inr rfl)⟩
      intro x hx
      split at hx
      · rcases mem_insertOrAssign hx with hx | rfl
        · exact hes x hx
        · exact ⟨rfl, he⟩
      · rcases List.mem_append.1 hx with hx | hx
        · exact hes x hx
        · cases List.mem_singleton.1 hx
          exact ⟨rfl, he⟩
    | group id =>
      obtain ⟨e, h1, -, rfl⟩ := h
      intro x hx
      rcases List.mem_append.1 hx with hx | hx
      · exact hes x hx
      · cases List.mem_singleton.1 hx
        exact ⟨rfl, e, rfl, hS _ id _ _ (.inr rfl) h1 (.inr rfl)⟩
  have rep : ∀ {number k unique}, (∀ e ∈ es, e.1 = 0 ∧ valOk C P k e.2) → repEff C S number k unique r es es' u →
      (∀ e ∈ es', e.1 = 0 ∧ valOk C P k e.2) := by
    intro number k unique hes h
    cases k with
    | scalar sc =>
      cases r with
      | len t hd p v =>
        simp only [repEff] at h
        split at h
        · unfold packedEff at h
          split at h
          · rw [h.1]; exact hes
          · obtain ⟨vs, h1, rfl, -⟩ := h
            intro e he
            rcases List.mem_append.1 he with he | he
            · exact hes e he
            · obtain ⟨x, hx, rfl⟩ := List.mem_map.1 he
              exact ⟨rfl, scalarOk_packed h1 (List.mem_filter.1 hx).1 (List.mem_filter.1 hx).2⟩
        · exact el hes h
      | _ => simp only [repEff] at h; exact el hes h
    | msg id => cases r <;> simp only [repEff] at h <;> exact el hes h
    | group id => cases r <;> simp only [repEff] at h <;> exact el hes h
  cases sd with
  | field number k card =>
    cases card with
    | implicit df =>
      obtain ⟨v0, h0, h0', -⟩ := hes
      obtain ⟨v, h1, rfl, -⟩ := h
      refine ⟨v, rfl, ?_, fun h => by cases h⟩
      cases k with
      | scalar sc =>
        obtain ⟨w, h1, rfl⟩ := h1
        refine scalarOk_rec h1 ?_
        cases sc with
        | enum c => cases c with
          | none => rfl
          | some vs => exact absurd rfl (himp _ _ _)
        | _ => rfl
      | msg id => exact value (by simp) (head (.inr ⟨v0, h0, h0'⟩)) h1
      | group id => exact value (by simp) (head (.inr ⟨v0, h0, h0'⟩)) h1
    | always df =>
      obtain ⟨v0, h0, h0'⟩ := hes
      cases k with
      | scalar sc => obtain ⟨w, h1, h2, rfl, -⟩ := h; exact ⟨_, rfl, scalarOk_rec h1 h2⟩
      | msg id => obtain ⟨v, h1, rfl, -⟩ := h; exact ⟨_, rfl, value (by simp) (head (.inr ⟨v0, h0, h0'⟩)) h1⟩
      | group id => obtain ⟨v, h1, rfl, -⟩ := h; exact ⟨_, rfl, value (by simp) (head (.inr ⟨v0, h0, h0'⟩)) h1⟩
    | optional =>
      cases k with
      | scalar sc =>
        obtain ⟨w, h1, h2⟩ := h
        split at h2
        · rename_i hv
          obtain ⟨rfl, -⟩ := h2
          exact .inr ⟨_, rfl, scalarOk_rec h1 hv⟩
        · rw [h2.1]; exact hes
      | msg id => obtain ⟨v, h1, rfl, -⟩ := h; exact .inr ⟨_, rfl, value (by simp) (head hes) h1⟩
      | group id => obtain ⟨v, h1, rfl, -⟩ := h; exact .inr ⟨_, rfl, value (by simp) (head hes) h1⟩
    | repeated p => exact rep hes h
    | map p =>
      obtain ⟨eid, rfl⟩ := hmap _ _ _ rfl
      cases p with
      | false => exact rep (number := number) hes h
      | true =>
        refine ⟨rep (number := number) hes.1 h, ?_⟩
        have h' : elemEff C S (.msg eid) true r es es' u := by
          cases r <;> exact h
        obtain ⟨e, -, -, rfl⟩ := h'
        exact asc_insert _ hes.2
  | oneof alts =>
    obtain ⟨j, k, hf, h⟩ := h
    obtain ⟨-, a, ha⟩ := findAlt_kind hf
    have alt : ∀ id, (k = .msg id ∨ k = .group id) →
        P id ((altVal C k j es).asMsg (C.schema id).default) ∨ (altVal C k j es).asMsg (C.schema id).default = (C.schema id).default := by
      intro id hk
      rcases hes with rfl | ⟨j', n, k', v, rfl, h1, h2⟩
      · exact .inr (nil hk)
      · simp only [altVal]
        split
        · rename_i e
          subst e
          rw [Nat.sub_zero, h1] at ha
          cases ha
          exact .inl (old1 hk h2)
        · exact .inr (nil hk)
    cases k with
    | scalar sc =>
      obtain ⟨w, h1, h2⟩ := h
      split at h2
      · rename_i hv
        obtain ⟨-, rfl, -⟩ := h2
        exact .inr ⟨j, a, _, _, rfl, ha, scalarOk_rec h1 hv⟩
      · rw [h2.1]; exact hes
    | msg id => obtain ⟨v, h1, rfl, -⟩ := h; exact .inr ⟨j, a, _, _, rfl, ha, value (by simp) alt h1⟩
    | group id => obtain ⟨v, h1, rfl, -⟩ := h; exact .inr ⟨j, a, _, _, rfl, ha, value (by simp) alt h1⟩

end

section
variable {C : Cfg}

theorem valOk_mono {P Q : Nat → Msg → Prop} (h : ∀ id m, P id m → Q id m) {k v} (hv : valOk C P k v) : valOk C Q k v := by
  cases k with
  | scalar sc => exact hv
  | msg id => obtain ⟨m, e, hm⟩ := hv; exact ⟨m, e, h _ _ hm⟩
  | group id => obtain ⟨m, e, hm⟩ := hv; exact ⟨m, e, h _ _ hm⟩

theorem slotOk_mono {b} {P Q : Nat → Msg → Prop} (h : ∀ id m, P id m → Q id m) {sd es} (hv : slotOk b C P sd es) : slotOk b C Q sd es := by
  cases sd with
  | field n k card =>
    cases card with
    | implicit d => obtain ⟨v, e, h1, h2⟩ := hv; exact ⟨v, e, valOk_mono h h1, h2⟩
    | always d => obtain ⟨v, e, h1⟩ := hv; exact ⟨v, e, valOk_mono h h1⟩
    | optional => rcases hv with hv | ⟨v, e, h1⟩; exact .inl hv; exact .inr ⟨v, e, valOk_mono h h1⟩
    | repeated p => exact fun e he => ⟨(hv e he).1, valOk_mono h (hv e he).2⟩
    | map p =>
      cases p with
      | false => exact fun e he => ⟨(hv e he).1, valOk_mono h (hv e he).2⟩
      | true => exact ⟨fun e he => ⟨(hv.1 e he).1, valOk_mono h (hv.1 e he).2⟩, hv.2⟩
  | oneof alts =>
    rcases hv with hv | ⟨j, n, k, v, e, ha, h1⟩
    · exact .inl hv
    · exact .inr ⟨j, n, k, v, e, ha, valOk_mono h h1⟩

theorem unknownRecs_mono {D : MsgD} {d d' : Nat} (hd : d ≤ d') {rs} (h : unknownRecs D d rs) : unknownRecs D d' rs :=
  ⟨h.1, h.2.1, fun r hr => ⟨(h.2.2 r hr).1, (h.2.2 r hr).2.1, (h.2.2 r hr).2.2.1, Nat.le_trans (h.2.2 r hr).2.2.2 hd⟩⟩

theorem unkOk_mono {D : MsgD} {d d' : Nat} (hd : d ≤ d') {u} (h : unkOk D d u) : unkOk D d' u := by
  unfold unkOk at h ⊢
  split
  · rename_i e; rw [e] at h; exact h
  · rename_i e
    rw [e] at h
    rcases h with h | ⟨rs, h1, h2⟩
    · exact .inl h
    · exact .inr ⟨rs, h1, unknownRecs_mono hd h2⟩
  · rename_i e
    rw [e] at h
    exact ⟨h.1, fun u hu => by obtain ⟨rs, h1, h2, h3⟩ := h.2 u hu; exact ⟨rs, h1, unknownRecs_mono hd h2, h3⟩⟩

theorem objLike_succ {b} : ∀ {d id m}, objLike b C d id m → objLike b C (d + 1) id m
  | 0, _, _, h => h.elim
  | d + 1, _, _, h => ⟨h.1, fun p hp => slotOk_mono (fun _ _ h => objLike_succ h) (h.2.1 p hp), unkOk_mono (Nat.le_succ _) h.2.2⟩

theorem objLike_le {b} {d d' id m} (hd : d ≤ d') (h : objLike b C d id m) : objLike b C d' id m := by
  induction hd with
  | refl => exact h
  | step _ ih => exact objLike_succ ih

theorem obj_fold {S : Sem} {d id}
    (hU : (C.schema id).unk = .none)
    (hS : ∀ r k id m m', k = .msg id ∨ k = .group id → recMsg C S k r m m' → objLike false C d id m ∨ m = (C.schema id).default →
      objLike false C d id m')
    (hmap : ∀ n k u, SlotD.field n k (.map u) ∈ (C.schema id).slots → ∃ eid, k = .msg eid)
    (himp : noImplicitClosed (C.schema id)) :
    ∀ {rs last m m'}, fold C S (C.schema id) last rs m m' → objLike false C (d + 1) id m → objLike false C (d + 1) id m'
  | [], _, _, _, h, hm => by cases h; exact hm
  | r :: rs, last, m, m', h, hm => by
    obtain ⟨m1, ⟨h0, h1⟩, h2⟩ := h
    refine obj_fold hU hS hmap himp h2 ?_
    obtain ⟨hlen, hsl, hunk⟩ := hm
    have addU : ∀ (m : Msg) n b, m.addUnk (C.schema id).unk n b = m := by intro m n b; rw [hU]; rfl
    split at h1
    · rename_i i hi
      obtain ⟨sd, hs, h1⟩ := h1
      obtain ⟨es', u, k1, rfl⟩ := slotStep_eff.1 h1
      have hdiv : ∀ (u : List (BitVec 32 × BitVec 64)) (m : Msg), divert (C.schema id).unk u m = m := by
        intro u
        induction u with
        | nil => intro m; rfl
        | cons p u ih => intro m; show divert _ u (m.addUnk _ _ _) = m; rw [addU, ih]
      rw [hdiv]
      have hmem : sd ∈ (C.schema id).slots := List.mem_of_getElem? hs
      have hi : i < m.slots.length := by rw [hlen]; exact (List.getElem?_eq_some_iff.1 hs).1
      have hg : m.slots[i]? = some (m.get i) := by simp [MsgOf.get, hi]
      have hold : slotOk false C (objLike false C d) sd (m.get i) :=
        hsl (sd, m.get i) (List.mem_iff_getElem?.2 ⟨i, List.getElem?_zip_eq_some.2 ⟨hs, hg⟩⟩)
      have good := obj_slotEff (hS r) (fun n k u e => hmap n k u (e ▸ hmem)) (fun n vs df e => himp n vs df (e ▸ hmem)) hold k1
      refine ⟨by simpa [MsgOf.put] using hlen, ?_, hunk⟩
      intro p hp
      obtain ⟨j, hj⟩ := List.mem_iff_getElem?.1 hp
      obtain ⟨j1, j2⟩ := List.getElem?_zip_eq_some.1 hj
      simp only [MsgOf.put] at j2
      rw [List.getElem?_set] at j2
      split at j2
      · rename_i e
        subst e
        rw [hs] at j1
        simp only [Option.some.injEq] at j1
        simp only [Option.some.injEq] at j2
        rw [← j1, ← j2]; exact good
      · exact hsl p (List.mem_iff_getElem?.2 ⟨j, List.getElem?_zip_eq_some.2 ⟨j1, j2⟩⟩)
    · obtain ⟨-, rfl⟩ := h1
      rw [addU]
      exact ⟨hlen, hsl, hunk⟩

theorem obj_sem (hS : schemaOk C) (hU : ∀ id, (C.schema id).unk = .none) (hI : ∀ id, noImplicitClosed (C.schema id)) {k : Nat}
    (hD : ∀ id, objLike false C (k + 1) id (C.schema id).default) : ∀ e,
    (∀ id m bs m', (sem C e).msg id m bs m' → objLike false C (e + k) id m ∨ m = (C.schema id).default → objLike false C (e + k) id m') ∧
    (∀ id m body m', (sem C e).grp id m body m' → objLike false C (e + k) id m ∨ m = (C.schema id).default → objLike false C (e + k) id m')
  | 0 => ⟨fun _ _ _ _ h => h.elim, fun _ _ _ _ h => h.elim⟩
  | e + 1 => by
    have ih := obj_sem hS hU hI hD e
    have hR : ∀ r k0 id m m', k0 = .msg id ∨ k0 = .group id → recMsg C (sem C e) k0 r m m' →
        objLike false C (e + k) id m ∨ m = (C.schema id).default → objLike false C (e + k) id m' := by
      intro r k0 id m m' hk h hm
      rcases hk with rfl | rfl <;> cases r <;> simp only [recMsg] at h
      · exact ih.1 _ _ _ _ h.2 hm
      · exact ih.2 _ _ _ _ h hm
    have start : ∀ id m, objLike false C (e + 1 + k) id m ∨ m = (C.schema id).default → objLike false C (e + k + 1) id m := by
      rintro id m (h | rfl)
      · rw [show e + k + 1 = e + 1 + k by omega]; exact h
      · exact objLike_le (by omega) (hD id)
    have hmap : ∀ id n k u, SlotD.field n k (.map u) ∈ (C.schema id).slots → ∃ eid, k = .msg eid := by
      intro id n k u h
      obtain ⟨eid, h1, -⟩ := hS.maps id n k u h
      exact ⟨eid, h1⟩
    refine ⟨?_, ?_⟩
    · rintro id m bs m' ⟨rs, -, -, -, f⟩ hm
      rw [show e + 1 + k = e + k + 1 by omega]
      exact obj_fold (hU id) hR (hmap id) (hI id) f (start id m hm)
    · intro id m body m' f hm
      rw [show e + 1 + k = e + k + 1 by omega]
      exact obj_fold (hU id) hR (hmap id) (hI id) f (start id m hm)

/-- What is read is an object. -/
theorem readBinpb_obj (hS : schemaOk C) (hU : ∀ id, (C.schema id).unk = .none) (hI : ∀ id, noImplicitClosed (C.schema id)) {k : Nat}
    (hD : ∀ id, objLike false C (k + 1) id (C.schema id).default) {limit id : Nat} {old m : Msg} {buf : List Byte}
    (h : readBinpb C limit id old buf = .ok m) : objLike false C (limit + 1 + k) id m := by
  rw [readBinpb_eq] at h
  exact (obj_sem hS hU hI hD (limit + 1)).1 _ _ _ _ ((parseOnto_iff _ _ _ _ _ _).1 h) (.inr rfl)

end

end HppProto
