import Verif.Proofs.Tidy
/-! Merging commutes with tidying. -/
namespace HppProto
open Spec

section
variable {C : Cfg} {mv : Bool}

/-- An object, or the default message of the type. -/
def Base (s : Bool) (C : Cfg) (d id : Nat) (m : Msg) : Prop := objLike s C d id m ∨ m = (C.schema id).default

theorem tidy_default (hS : schemaOk C) {s : Bool} : ∀ d id m, objLike s C d id m → tidy C d id (C.schema id).default = (C.schema id).default
  | 0, _, _, h => h.elim
  | d + 1, id, m, ⟨h1, h2, h3⟩ => by
    rw [tidy_eq]
    have sub : ∀ {k : Kind} {dflt v : Val}, (∀ s, k = .msg s ∨ k = .group s → dflt = .msg (C.schema s).default) →
        valOk C (objLike s C d) k v → tidyVal C (tidy C d) k dflt = dflt := by
      intro k dflt v hp hv
      cases k with
      | scalar sc => rfl
      | msg t => obtain ⟨x, -, hx⟩ := hv; rw [hp t (.inl rfl)]; simp only [tidyVal, Val.asMsg, tidy_default hS d t x hx]
      | group t => obtain ⟨x, -, hx⟩ := hv; rw [hp t (.inr rfl)]; simp only [tidyVal, Val.asMsg, tidy_default hS d t x hx]
    have slot : ∀ p ∈ (C.schema id).slots.zip m.slots, p.1.initial.map (tidyEntry C (tidy C d) p.1) = p.1.initial := by
      intro p hp
      have hsd := (List.of_mem_zip hp).1
      have hv := h2 p hp
      obtain ⟨sd, es⟩ := p
      cases sd with
      | oneof alts => rfl
      | field n k card =>
        have hpl := fun dflt t h => hS.plain id n k card dflt t hsd h
        cases card with
        | implicit dflt =>
          obtain ⟨v, -, hv, -⟩ := hv
          simp only [SlotD.initial, List.map_cons, List.map_nil, tidyEntry, sub (fun t => hpl dflt t (.inl rfl)) hv, ite_self]
        | always dflt =>
          obtain ⟨v, -, hv⟩ := hv
          simp only [SlotD.initial, List.map_cons, List.map_nil, tidyEntry, sub (fun t => hpl dflt t (.inr rfl)) hv]
        | optional => rfl
        | repeated p => rfl
        | map u => rfl
    have : ∀ {sds : List SlotD} {ss : List (List (Nat × Val))}, ss.length = sds.length →
        (∀ p ∈ sds.zip ss, p.1.initial.map (tidyEntry C (tidy C d) p.1) = p.1.initial) →
        List.zipWith (fun sd es => es.map (tidyEntry C (tidy C d) sd)) sds (sds.map SlotD.initial) = sds.map SlotD.initial := by
      intro sds
      induction sds with
      | nil => intro ss _ _; rfl
      | cons sd sds ih =>
        intro ss hl h
        cases ss with
        | nil => simp at hl
        | cons x ss =>
          rw [List.map_cons, List.zipWith_cons_cons, h (sd, x) (by simp), ih (ss := ss) (by simpa using hl) (fun p hp => h p (by simp [hp]))]
    simp only [MsgD.default]
    rw [this h1 slot]

variable {s : Bool} {d : Nat}

/-- Induction hypothesis: one level down. -/
def Down (C : Cfg) (mv s : Bool) (d : Nat) : Prop := ∀ id a b, Base s C d id a → objLike s C d id b →
  tidy C d id (mergeMsg C mv id a b) = mergeMsg C mv id (tidy C d id a) (tidy C d id b)

theorem val_tidy_merge (hS : schemaOk C) (ih : Down C mv s d) {k : Kind} {es es' : List (Nat × Val)} {v : Val}
    (he : es = [] ∧ es' = [] ∨ ∃ x w, es = [(x, w)] ∧ es' = [(x, tidyVal C (tidy C d) k w)] ∧
      (∀ t, k = .msg t ∨ k = .group t → ∃ m, w = .msg m ∧ Base s C d t m))
    (hv : valOk C (objLike s C d) k v) :
    tidyVal C (tidy C d) k (mergeVal C mv k es v) = mergeVal C mv k es' (tidyVal C (tidy C d) k v) := by
  have hb : ∀ t, k = .msg t ∨ k = .group t → ∀ m, objLike s C d t m →
      Base s C d t (mergeBase C t es) ∧ mergeBase C t es' = tidy C d t (mergeBase C t es) := by
    intro t hk m hm
    rcases he with ⟨rfl, rfl⟩ | ⟨x, w, rfl, rfl, hw⟩
    · exact ⟨.inr rfl, (tidy_default hS d t m hm).symm⟩
    · obtain ⟨y, rfl, hy⟩ := hw t hk
      refine ⟨hy, ?_⟩
      rcases hk with rfl | rfl <;> rfl
  cases k with
  | scalar sc => simp only [tidyVal, mergeVal_scalar]
  | msg t =>
    obtain ⟨m, rfl, hm⟩ := hv
    obtain ⟨h1, h2⟩ := hb t (.inl rfl) m hm
    simp only [mergeVal_msg, tidyVal, Val.asMsg, h2, ih _ _ _ h1 hm]
  | group t =>
    obtain ⟨m, rfl, hm⟩ := hv
    obtain ⟨h1, h2⟩ := hb t (.inr rfl) m hm
    simp only [mergeVal_group, tidyVal, Val.asMsg, h2, ih _ _ _ h1 hm]

theorem elem_tidy_merge (hS : schemaOk C) (ih : Down C mv s d) {k : Kind} {v : Val} (hv : valOk C (objLike s C d) k v) :
    tidyVal C (tidy C d) k (mergeElem C mv k v) = mergeElem C mv k (tidyVal C (tidy C d) k v) := by
  cases k with
  | scalar sc => rfl
  | msg t =>
    obtain ⟨m, rfl, hm⟩ := hv
    cases mv with
    | true => simp [mergeElem, tidyVal, Val.asMsg]
    | false => simp [mergeElem, tidyVal, Val.asMsg, ih _ _ _ (.inr rfl) hm, tidy_default hS d t m hm]
  | group t =>
    obtain ⟨m, rfl, hm⟩ := hv
    cases mv with
    | true => simp [mergeElem, tidyVal, Val.asMsg]
    | false => simp [mergeElem, tidyVal, Val.asMsg, ih _ _ _ (.inr rfl) hm, tidy_default hS d t m hm]

theorem map_insertIfAbsent {g : Val → Val} {e : Val} : ∀ {l : List (Nat × Val)}, (∀ x ∈ (0, e) :: l, entryRank (g x.2) = entryRank x.2) →
    (insertIfAbsent e l).map (fun x => (x.1, g x.2)) = insertIfAbsent (g e) (l.map (fun x => (x.1, g x.2)))
  | [], _ => rfl
  | (a, x) :: l, h => by
    have he := h (0, e) (by simp)
    have hx := h (a, x) (by simp)
    have := map_insertIfAbsent (g := g) (e := e) (l := l) (fun y hy => h y (by
      rcases List.mem_cons.1 hy with rfl | hy
      · simp
      · simp [hy]))
    simp only [insertIfAbsent, List.map_cons]
    simp only at he hx
    rw [he, hx]
    split
    · rfl
    · split
      · rfl
      · simp only [List.map_cons, this]

theorem map_mergeMap {g : Val → Val} {dest src : List (Nat × Val)} (hd : ∀ x ∈ dest, entryRank (g x.2) = entryRank x.2)
    (hs : ∀ x ∈ src, entryRank (g x.2) = entryRank x.2) :
    (mergeMap dest src).map (fun x => (x.1, g x.2)) = mergeMap (dest.map (fun x => (x.1, g x.2))) (src.map (fun x => (x.1, g x.2))) := by
  have fold : ∀ (dest src : List (Nat × Val)), (∀ x ∈ dest, entryRank (g x.2) = entryRank x.2) → (∀ x ∈ src, entryRank (g x.2) = entryRank x.2) →
      (dest.foldl (fun acc e => insertIfAbsent e.2 acc) src).map (fun x => (x.1, g x.2)) =
      (dest.map (fun x => (x.1, g x.2))).foldl (fun acc e => insertIfAbsent e.2 acc) (src.map (fun x => (x.1, g x.2))) := by
    intro dest
    induction dest with
    | nil => intros; rfl
    | cons e dest ih =>
      intro src hd hs
      have he := hd e (by simp)
      rw [List.foldl_cons, ih _ (fun x hx => hd x (by simp [hx])), map_insertIfAbsent]
      · rfl
      · intro x hx
        rcases List.mem_cons.1 hx with rfl | hx
        · exact he
        · exact hs x hx
      · intro x hx
        rcases mem_insertIfAbsent hx with h | rfl
        · exact hs x h
        · exact he
  unfold mergeMap
  simp only [List.isEmpty_map]
  split
  · rfl
  · split
    · rfl
    · exact fold dest src hd hs

theorem slot_tidy_merge (hS : schemaOk C) (ih : Down C mv s d) {id : Nat} {sd : SlotD} (hsd : sd ∈ (C.schema id).slots)
    {a b : List (Nat × Val)} (ha : slotOk s C (objLike s C d) sd a ∨ a = sd.initial) (hb : slotOk s C (objLike s C d) sd b) :
    (mergeSlot C mv sd a b).map (tidyEntry C (tidy C d) sd) =
      mergeSlot C mv sd (a.map (tidyEntry C (tidy C d) sd)) (b.map (tidyEntry C (tidy C d) sd)) := by
  have hval : ∀ {k v}, valOk C (objLike s C d) k v → ∀ t, k = .msg t ∨ k = .group t → ∃ m, v = .msg m ∧ Base s C d t m := by
    intro k v h t hk
    rcases hk with rfl | rfl <;> obtain ⟨m, rfl, h⟩ := h <;> exact ⟨m, rfl, .inl h⟩
  cases sd with
  | oneof alts =>
    rcases hb with rfl | ⟨j, n, k, v, rfl, hj, hv⟩
    · rw [List.map_nil, mergeSlot_nil, mergeSlot_nil]
    · replace ha : a = [] ∨ ∃ j n k v, a = [(j, v)] ∧ alts[j]? = some (n, k) ∧ valOk C (objLike s C d) k v := by
        rcases ha with h | rfl
        · exact h
        · exact .inl rfl
      have hf : (a.map (tidyEntry C (tidy C d) (.oneof alts))).map Prod.fst = a.map Prod.fst := by
        rw [List.map_map]; exact List.map_congr_left (fun _ _ => rfl)
      simp only [mergeSlot, List.map_cons, List.map_nil, tidyEntry, hj]
      rcases ha with rfl | ⟨j2, n2, k2, v2, rfl, hj2, hv2⟩
      · simp [tidyEntry, hj]
      · by_cases hjj : j2 = j
        · subst hjj
          rw [hj] at hj2; cases hj2
          simp only [List.map_cons, List.map_nil, if_true, tidyEntry, hj]
          rw [val_tidy_merge hS ih (.inr ⟨_, _, rfl, rfl, hval hv2⟩) hv]
        · simp [hjj, tidyEntry, hj]
  | field n k card =>
    have hpl := fun dflt t h => hS.plain id n k card dflt t hsd h
    have single : ∀ {dflt : Val}, card = .implicit dflt ∨ card = .always dflt → (∃ v, a = [(0, v)] ∧ valOk C (objLike s C d) k v) ∨ a = [(0, dflt)] →
        ∃ w, a = [(0, w)] ∧ (∀ t, k = .msg t ∨ k = .group t → ∃ m, w = .msg m ∧ Base s C d t m) := by
      intro dflt hc h
      rcases h with ⟨v, rfl, hv⟩ | rfl
      · exact ⟨v, rfl, hval hv⟩
      · exact ⟨dflt, rfl, fun t hk => ⟨_, hpl dflt t hc hk, .inr rfl⟩⟩
    cases card with
    | implicit dflt =>
      obtain ⟨v, rfl, hv, -⟩ := hb
      obtain ⟨w, rfl, hw⟩ := single (.inl rfl) (ha.imp (fun ⟨v, e, h, _⟩ => ⟨v, e, h⟩) (fun h => h))
      simp only [mergeSlot, List.map_cons, List.map_nil, tidyEntry]
      by_cases hd : isDefault k dflt v = true
      · simp only [if_pos hd, if_pos (isDefault_self hd), List.map_cons, List.map_nil, tidyEntry]
      · have hn : ∀ x, isDefault k dflt x = isDefault k dflt v ∨ ∃ sc, k = .scalar sc := by
          intro x; cases k <;> simp [isDefault]
        simp only [if_neg hd, List.map_cons, List.map_nil, tidyEntry]
        cases k with
        | scalar sc =>
          simp only [mergeVal_scalar, tidyVal, if_neg hd]
        | msg t =>
          have hk : ∀ x, isDefault (.msg t) dflt x = false := fun _ => rfl
          simp only [hk, if_false, Bool.false_eq_true]
          rw [val_tidy_merge hS ih (.inr ⟨_, _, rfl, rfl, hw⟩) hv]
        | group t =>
          have hk : ∀ x, isDefault (.group t) dflt x = false := fun _ => rfl
          simp only [hk, if_false, Bool.false_eq_true]
          rw [val_tidy_merge hS ih (.inr ⟨_, _, rfl, rfl, hw⟩) hv]
    | always dflt =>
      obtain ⟨v, rfl, hv⟩ := hb
      obtain ⟨w, rfl, hw⟩ := single (.inr rfl) ha
      simp only [mergeSlot, List.map_cons, List.map_nil, tidyEntry]
      rw [val_tidy_merge hS ih (.inr ⟨_, _, rfl, rfl, hw⟩) hv]
    | optional =>
      rcases hb with rfl | ⟨v, rfl, hv⟩
      · rw [List.map_nil, mergeSlot_nil, mergeSlot_nil]
      · simp only [mergeSlot, List.map_cons, List.map_nil, tidyEntry]
        have ha' : a = [] ∨ ∃ v, a = [(0, v)] ∧ valOk C (objLike s C d) k v := by
          rcases ha with h | rfl
          · exact h
          · exact .inl rfl
        rcases ha' with rfl | ⟨w, rfl, hw⟩
        · rw [val_tidy_merge hS ih (.inl ⟨rfl, rfl⟩) hv]; rfl
        · rw [val_tidy_merge hS ih (.inr ⟨_, _, rfl, rfl, hval hw⟩) hv]; rfl
    | repeated p =>
      rw [mergeSlot_repeated, mergeSlot_repeated, List.map_append, List.map_map, List.map_map]
      congr 1
      apply List.map_congr_left
      intro e he
      simp only [Function.comp, tidyEntry, elem_tidy_merge hS ih (hb e he).2]
    | map u =>
      cases u with
      | false =>
        rw [mergeSlot_seq, mergeSlot_seq, List.map_append]
      | true =>
        obtain ⟨eid, rfl, hent⟩ := hS.maps id n k true hsd
        rw [mergeSlot_map, mergeSlot_map]
        have r : ∀ {l : List (Nat × Val)}, (∀ e ∈ l, e.1 = 0 ∧ valOk C (objLike s C d) (.msg eid) e.2) → ∀ x ∈ l,
            entryRank (tidyVal C (tidy C d) (.msg eid) x.2) = entryRank x.2 := fun h x hx => rank_tidy hS hent (h x hx).2
        refine map_mergeMap (g := tidyVal C (tidy C d) (.msg eid)) ?_ (r hb.1)
        rcases ha with h | rfl
        · exact r h.1
        · intro x hx; cases hx

theorem tidy_merge (hS : schemaOk C) : ∀ d, Down C mv s d
  | 0, _, _, _, _, h => h.elim
  | d + 1, id, a, b, ha, ⟨b1, b2, b3⟩ => by
    have hl : a.slots.length = (C.schema id).slots.length := by
      rcases ha with h | rfl
      · exact h.1
      · simp [MsgD.default]
    have hs : ∀ p ∈ (C.schema id).slots.zip a.slots, slotOk s C (objLike s C d) p.1 p.2 ∨ p.2 = p.1.initial := by
      intro p hp
      rcases ha with h | rfl
      · exact .inl (h.2.1 p hp)
      · simp only [MsgD.default] at hp
        have : ∀ (l : List SlotD) p, p ∈ l.zip (l.map SlotD.initial) → p.2 = p.1.initial := by
          intro l
          induction l with
          | nil => intro p h; cases h
          | cons x l ih => intro p h; simp at h; rcases h with rfl | h
                           · rfl
                           · exact ih p (by simpa using h)
        exact .inr (this _ p hp)
    rw [mergeMsg_eq, mergeMsg_eq, tidy_eq, tidy_eq, tidy_eq]
    have : ∀ {sds : List SlotD} {as bs : List (List (Nat × Val))}, (∀ sd ∈ sds, sd ∈ (C.schema id).slots) →
        as.length = sds.length → bs.length = sds.length →
        (∀ p ∈ sds.zip as, slotOk s C (objLike s C d) p.1 p.2 ∨ p.2 = p.1.initial) →
        (∀ p ∈ sds.zip bs, slotOk s C (objLike s C d) p.1 p.2) →
        List.zipWith (fun sd es => es.map (tidyEntry C (tidy C d) sd)) sds (mergeSlots C mv sds as bs) =
        mergeSlots C mv sds (List.zipWith (fun sd es => es.map (tidyEntry C (tidy C d) sd)) sds as)
          (List.zipWith (fun sd es => es.map (tidyEntry C (tidy C d) sd)) sds bs) := by
      intro sds
      induction sds with
      | nil => intro as bs _ _ _ _ _; simp [mergeSlots_nil]
      | cons sd sds ih =>
        intro as bs hin h1 h2 h3 h4
        cases as with
        | nil => simp at h1
        | cons x as => cases bs with
          | nil => simp at h2
          | cons y bs =>
            simp only [mergeSlots_cons, List.zipWith_cons_cons]
            rw [slot_tidy_merge hS (tidy_merge hS d) (hin sd (by simp)) (h3 (sd, x) (by simp)) (h4 (sd, y) (by simp)),
              ih (fun sd h => hin sd (by simp [h])) (by simpa using h1) (by simpa using h2) (fun p hp => h3 p (by simp [hp]))
                (fun p hp => h4 p (by simp [hp]))]
    rw [this (fun _ h => h) hl b1 hs b2]

end
end HppProto
