import Verif.Proofs.MergeLaws
/-! An object and its tidied form have the same encoding. -/
namespace HppProto
open Spec

theorem f32Eq_self {a b : BitVec 32} (h : f32Eq a b = true) : f32Eq b b = true := by
  unfold f32Eq at *
  simp only at h ⊢
  split at h
  · cases h
  · rename_i hn
    simp only [Bool.or_eq_true, not_or] at hn
    rw [if_neg (by simp [hn.2])]
    simp

theorem f64Eq_self {a b : BitVec 64} (h : f64Eq a b = true) : f64Eq b b = true := by
  unfold f64Eq at *
  simp only at h ⊢
  split at h
  · cases h
  · rename_i hn
    simp only [Bool.or_eq_true, not_or] at hn
    rw [if_neg (by simp [hn.2])]
    simp

theorem isDefault_self {k dflt v} (h : isDefault k dflt v = true) : isDefault k dflt dflt = true := by
  cases k with
  | scalar sc =>
    cases sc with
    | fixed32 f => cases f with
      | true => exact f32Eq_self h
      | false => simp [isDefault]
    | fixed64 f => cases f with
      | true => exact f64Eq_self h
      | false => simp [isDefault]
    | _ => simp [isDefault]
  | _ => cases h

section
variable {C : Cfg}

/-- A value with the messages in it tidied. -/
def tidyVal (C : Cfg) (f : Nat → Msg → Msg) (k : Kind) (v : Val) : Val := match k with
  | .scalar _ => v
  | .msg sub | .group sub => .msg (f sub (v.asMsg (C.schema sub).default))

def tidyEntry (C : Cfg) (f : Nat → Msg → Msg) (sd : SlotD) (e : Nat × Val) : Nat × Val := (e.1,
  match sd with
  | .field _ k (.implicit dflt) => if isDefault k dflt e.2 then dflt else tidyVal C f k e.2
  | .field _ k _ => tidyVal C f k e.2
  | .oneof alts => match alts[e.1]? with
    | some (_, k) => tidyVal C f k e.2
    | none => e.2)

theorem tidy_eq (d id) (m : Msg) : tidy C (d + 1) id m =
    ⟨List.zipWith (fun sd es => es.map (tidyEntry C (tidy C d) sd)) (C.schema id).slots m.slots, m.unk⟩ := rfl

theorem tidyVal_ok {P Q : Nat → Msg → Prop} {f} (h : ∀ id m, P id m → Q id (f id m)) {k v} (hv : valOk C P k v) :
    valOk C Q k (tidyVal C f k v) := by
  cases k with
  | scalar sc => exact hv
  | msg s => obtain ⟨m, rfl, hm⟩ := hv; exact ⟨_, rfl, h _ _ hm⟩
  | group s => obtain ⟨m, rfl, hm⟩ := hv; exact ⟨_, rfl, h _ _ hm⟩

theorem record_tidy {P : Nat → Msg → Prop} {f enc} (h : ∀ id m, P id m → enc id (f id m) = enc id m) {n k v} (hv : valOk C P k v) :
    record C enc n k (tidyVal C f k v) = record C enc n k v := by
  cases k with
  | scalar sc => rfl
  | msg s => obtain ⟨m, rfl, hm⟩ := hv; simp only [record, tidyVal, Val.asMsg, h _ _ hm]
  | group s => obtain ⟨m, rfl, hm⟩ := hv; simp only [record, tidyVal, Val.asMsg, h _ _ hm]

/-- The key of a map entry is not touched. -/
theorem rank_tidy (hS : schemaOk C) {s d eid v} (he : (C.schema eid).isEntry = true) (hv : valOk C (objLike s C d) (.msg eid) v) :
    entryRank (tidyVal C (tidy C d) (.msg eid) v) = entryRank v := by
  obtain ⟨m, rfl, hm⟩ := hv
  cases d with
  | zero => exact hm.elim
  | succ d =>
    obtain ⟨k, dflt, rest, hs⟩ := hS.entries eid he
    obtain ⟨h1, h2, -⟩ := hm
    rw [hs] at h1 h2
    obtain ⟨slots, unk⟩ := m
    cases slots with
    | nil => simp at h1
    | cons es ss =>
      obtain ⟨w, e, hw⟩ := h2 (.field 1 k (.always dflt), es) (by simp)
      simp only at e
      subst e
      simp only [tidyVal, Val.asMsg, tidy_eq, hs, List.zipWith_cons_cons, entryRank, Val.entryKey, MsgOf.get, List.map_cons,
        List.map_nil, List.getD_cons_zero, List.head?_cons, Option.map_some, tidyEntry]
      cases k with
      | scalar sc => rfl
      | msg s => obtain ⟨m, rfl, -⟩ := hw; rfl
      | group s => obtain ⟨m, rfl, -⟩ := hw; rfl

theorem slot_tidy_ok (hS : schemaOk C) {s d id sd es} (ih : ∀ id m, objLike s C d id m → objOk C d id (tidy C d id m))
    (hsd : sd ∈ (C.schema id).slots) (h : slotOk s C (objLike s C d) sd es) :
    slotOk true C (objOk C d) sd (es.map (tidyEntry C (tidy C d) sd)) := by
  cases sd with
  | oneof alts =>
    rcases h with rfl | ⟨j, n, k, v, rfl, hj, hv⟩
    · exact .inl rfl
    · refine .inr ⟨j, n, k, tidyVal C (tidy C d) k v, ?_, hj, tidyVal_ok ih hv⟩
      simp only [List.map_cons, List.map_nil, tidyEntry, hj]
  | field n k card =>
    cases card with
    | implicit dflt =>
      obtain ⟨v, rfl, hv, -⟩ := h
      simp only [List.map_cons, List.map_nil, tidyEntry]
      by_cases hd : isDefault k dflt v = true
      · simp only [if_pos hd]
        refine ⟨dflt, rfl, ?_, fun _ _ => rfl⟩
        cases k with
        | scalar sc => exact hS.defaults id n sc dflt hsd
        | _ => cases hd
      · simp only [if_neg hd]
        refine ⟨_, rfl, tidyVal_ok ih hv, fun _ h => ?_⟩
        cases k with
        | scalar sc => exact absurd h hd
        | _ => cases h
    | always dflt => obtain ⟨v, rfl, hv⟩ := h; exact ⟨_, rfl, tidyVal_ok ih hv⟩
    | optional =>
      rcases h with rfl | ⟨v, rfl, hv⟩
      · exact .inl rfl
      · exact .inr ⟨_, rfl, tidyVal_ok ih hv⟩
    | repeated p =>
      intro e he
      obtain ⟨x, hx, rfl⟩ := List.mem_map.1 he
      exact ⟨(h x hx).1, tidyVal_ok ih (h x hx).2⟩
    | map u =>
      obtain ⟨eid, rfl, hent⟩ := hS.maps id n k u hsd
      cases u with
      | true =>
        obtain ⟨h1, h2⟩ := h
        refine ⟨?_, ?_⟩
        · intro e he
          obtain ⟨x, hx, rfl⟩ := List.mem_map.1 he
          exact ⟨(h1 x hx).1, tidyVal_ok ih (h1 x hx).2⟩
        · rw [List.pairwise_map]
          refine h2.imp_of_mem ?_
          intro a b ha hb hab
          have r : ∀ x ∈ es, entryRank (tidyEntry C (tidy C d) (.field n (.msg eid) (.map true)) x).2 = entryRank x.2 :=
            fun x hx => rank_tidy hS hent (h1 x hx).2
          rw [r a ha, r b hb]
          exact hab
      | false =>
        intro e he
        obtain ⟨x, hx, rfl⟩ := List.mem_map.1 he
        exact ⟨(h x hx).1, tidyVal_ok ih (h x hx).2⟩

theorem zip_zipWith {sds : List SlotD} {f : SlotD → List (Nat × Val) → List (Nat × Val)} : ∀ {ss : List (List (Nat × Val))},
    sds.zip (List.zipWith f sds ss) = (sds.zip ss).map (fun p => (p.1, f p.1 p.2)) := by
  induction sds with
  | nil => intro ss; rfl
  | cons sd sds ih =>
    intro ss
    cases ss with
    | nil => rfl
    | cons s ss => simp [ih]

theorem tidy_ok (hS : schemaOk C) {s : Bool} : ∀ d id m, objLike s C d id m → objOk C d id (tidy C d id m)
  | 0, _, _, h => h.elim
  | d + 1, id, m, ⟨h1, h2, h3⟩ => by
    rw [tidy_eq]
    refine ⟨by simp [h1], ?_, h3⟩
    intro p hp
    simp only [zip_zipWith] at hp
    obtain ⟨q, hq, rfl⟩ := List.mem_map.1 hp
    exact slot_tidy_ok hS (tidy_ok hS d) (List.of_mem_zip hq).1 (h2 q hq)

theorem flatMap_congr' {α β} {f g : α → List β} : ∀ {l : List α}, (∀ x ∈ l, f x = g x) → l.flatMap f = l.flatMap g
  | [], _ => rfl
  | a :: l, h => by rw [List.flatMap_cons, List.flatMap_cons, h a (by simp), flatMap_congr' (fun x hx => h x (by simp [hx]))]

theorem member_tidy {s P f enc sd es} (h : ∀ id m, P id m → enc id (f id m) = enc id m) (hs : slotOk s C P sd es) :
    member C isDefault enc sd (es.map (tidyEntry C f sd)) = member C isDefault enc sd es := by
  have rep : ∀ {n k card}, (∀ d, card ≠ .implicit d) → (∀ e ∈ es, e.1 = 0 ∧ valOk C P k e.2) →
      (es.map (tidyEntry C f (.field n k card))).flatMap (fun e => record C enc n k e.2) = es.flatMap (fun e => record C enc n k e.2) := by
    intro n k card hc he
    rw [List.flatMap_map]
    apply flatMap_congr'
    intro x hx
    have : tidyEntry C f (.field n k card) x = (x.1, tidyVal C f k x.2) := by
      cases card with
      | implicit d => exact absurd rfl (hc d)
      | _ => rfl
    rw [this]
    exact record_tidy h (he x hx).2
  cases sd with
  | oneof alts =>
    rcases hs with rfl | ⟨j, n, k, v, rfl, hj, hv⟩
    · rfl
    · simp only [member, List.map_cons, List.map_nil, List.flatMap_cons, List.flatMap_nil, tidyEntry, hj, record_tidy h hv]
  | field n k card =>
    cases card with
    | implicit dflt =>
      obtain ⟨v, rfl, hv, -⟩ := hs
      simp only [member, List.map_cons, List.map_nil, List.flatMap_cons, List.flatMap_nil, tidyEntry]
      by_cases hd : isDefault k dflt v = true
      · simp only [if_pos hd, if_pos (isDefault_self hd)]
      · simp only [if_neg hd]
        rw [if_neg, record_tidy h hv]
        cases k with
        | scalar sc => exact hd
        | _ => intro h; cases h
    | always dflt =>
      obtain ⟨v, rfl, hv⟩ := hs
      have := rep (n := n) (k := k) (card := .always dflt) (by simp) (by simpa using hv)
      cases k <;> exact this
    | optional =>
      have := rep (n := n) (k := k) (card := .optional) (by simp) (by
        rcases hs with rfl | ⟨v, rfl, hv⟩
        · simp
        · simpa using hv)
      cases k <;> exact this
    | repeated p =>
      have := rep (n := n) (k := k) (card := .repeated p) (by simp) hs
      cases p with
      | false => cases k <;> exact this
      | true =>
        cases k with
        | scalar sc =>
          have e : es.map (tidyEntry C f (.field n (.scalar sc) (.repeated true))) = es := by
            conv => rhs; rw [← List.map_id es]
            exact List.map_congr_left (fun x _ => rfl)
          rw [e]
        | _ => exact this
    | map u =>
      have := rep (n := n) (k := k) (card := .map u) (by simp) (by
        cases u with
        | true => exact hs.1
        | false => exact hs)
      cases k <;> exact this

theorem encode_tidy {s : Bool} : ∀ d id m, objLike s C d id m → encode C isDefault d id (tidy C d id m) = encode C isDefault d id m
  | 0, _, _, h => h.elim
  | d + 1, id, m, ⟨h1, h2, h3⟩ => by
    rw [tidy_eq]
    simp only [encode, zip_zipWith, List.flatMap_map]
    congr 1
    apply flatMap_congr'
    intro p hp
    exact member_tidy (encode_tidy d) (h2 p hp)

/-- A strict object is its own tidied form. -/
theorem tidy_self : ∀ d id m, objOk C d id m → tidy C d id m = m
  | 0, _, _, h => h.elim
  | d + 1, id, m, ⟨h1, h2, h3⟩ => by
    rw [tidy_eq]
    have val : ∀ {k v}, valOk C (objOk C d) k v → tidyVal C (tidy C d) k v = v := by
      intro k v h
      cases k with
      | scalar sc => rfl
      | msg s => obtain ⟨m, rfl, h⟩ := h; simp only [tidyVal, Val.asMsg, tidy_self d s m h]
      | group s => obtain ⟨m, rfl, h⟩ := h; simp only [tidyVal, Val.asMsg, tidy_self d s m h]
    have slot : ∀ sd es, slotOk true C (objOk C d) sd es → es.map (tidyEntry C (tidy C d) sd) = es := by
      intro sd es h
      refine (List.map_congr_left (g := fun x => x) ?_).trans (by simp)
      rintro ⟨a, v⟩ he
      cases sd with
      | oneof alts =>
        rcases h with rfl | ⟨j, n, k, v, rfl, hj, hv⟩
        · cases he
        · cases List.mem_singleton.1 he
          simp only [tidyEntry, hj, val hv]
      | field n k card =>
        cases card with
        | implicit dflt =>
          obtain ⟨v, rfl, hv, hd⟩ := h
          cases List.mem_singleton.1 he
          simp only [tidyEntry]
          split
          · rename_i h; rw [hd rfl h]
          · rw [val hv]
        | always dflt => obtain ⟨v, rfl, hv⟩ := h; cases List.mem_singleton.1 he; simp only [tidyEntry, val hv]
        | optional =>
          rcases h with rfl | ⟨v, rfl, hv⟩
          · cases he
          · cases List.mem_singleton.1 he; simp only [tidyEntry, val hv]
        | repeated p => simp only [tidyEntry, val (h _ he).2]
        | map u => cases u with
          | true => simp only [tidyEntry, val (h.1 _ he).2]
          | false => simp only [tidyEntry, val (h _ he).2]
    have : ∀ {sds : List SlotD} {ss : List (List (Nat × Val))}, ss.length = sds.length →
        (∀ p ∈ sds.zip ss, slotOk true C (objOk C d) p.1 p.2) →
        List.zipWith (fun sd es => es.map (tidyEntry C (tidy C d) sd)) sds ss = ss := by
      intro sds
      induction sds with
      | nil => intro ss hl _; cases ss with
        | nil => rfl
        | cons => simp at hl
      | cons sd sds ih =>
        intro ss hl h
        cases ss with
        | nil => simp at hl
        | cons s ss =>
          rw [List.zipWith_cons_cons, slot _ _ (h (sd, s) (by simp)), ih (by simpa using hl) (fun p hp => h p (by simp [hp]))]
    rw [this h1 h2]

end
end HppProto
