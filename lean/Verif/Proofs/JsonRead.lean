import Verif.Proofs.JsonReadField

/-! # Reading JSON: messages -/

namespace HppProto.Json
open HppProto HppProto.Spec

section
variable {T : JTypes} {D : JDesc} (hD : D.Ok T)
include hD

theorem dyn_mem {f : JField} (hf : f ∈ D.fields) : f.dyn ∈ D.dyn.fields := List.mem_map.2 ⟨f, hf, rfl⟩

theorem field_eq {f g : JField} (hf : f ∈ D.fields) (hg : g ∈ D.fields) (h : f.dyn = g.dyn) : f = g := by
  obtain ⟨i, hi, rfl⟩ := List.getElem_of_mem hf
  obtain ⟨j, hj, rfl⟩ := List.getElem_of_mem hg
  have hnd := hD.distinct
  have hij : i = j := by
    refine (List.getElem?_inj (l := D.fields.map fun f => f.dyn.number) (by simpa using hi) hnd).1 ?_
    simp [hi, hj, h]
  subst hij
  rfl

/-- Two fields that are set do not share a slot. -/
theorem present_slot {f g : JField} (hf : f ∈ D.fields) (hg : g ∈ D.fields) {m : DynMsg}
    (hfv : f.dyn.hasValue m = true) (hgv : g.dyn.hasValue m = true) (hs : f.dyn.layout.slot = g.dyn.layout.slot) : f = g := by
  rcases hD.dyn.same_slot (dyn_mem hD hf) (dyn_mem hD hg) hs with h | ⟨⟨o, h1, h2⟩, hne⟩
  · exact field_eq hD hf hg h
  · have r1 := (hD.dyn.member_explicit (dyn_mem hD hf) h1).1
    have r2 := (hD.dyn.member_explicit (dyn_mem hD hg) h2).1
    have e1 := (hasValue_singular r1 m).1 hfv
    have e2 := (hasValue_singular r2 m).1 hgv
    have : f.dyn.storage m = g.dyn.storage m := by simp [DynField.storage, hs]
    rw [this] at e1
    exact absurd (e1.symm.trans e2) hne

theorem absent_zero {f : JField} (hf : f ∈ D.fields) {m : DynMsg} (h : f.dyn.storage m = (0, .zero)) :
    f.dyn.hasValue m = false := by
  cases hr : f.dyn.repeated with
  | true => simp [DynField.hasValue, slotHasValue, hr, h]
  | false =>
    have := hD.dyn.ordinal_pos (dyn_mem hD hf) hr
    cases h' : f.dyn.hasValue m with
    | false => rfl
    | true =>
      have := (hasValue_singular hr m).1 h'
      rw [h] at this
      simp at this
      omega

end

theorem storage_empty (f : DynField) (D : DynDesc) : f.storage D.empty = (0, .zero) := by
  simp only [DynField.storage, DynDesc.empty, List.getD_eq_getElem?_getD, List.getElem?_replicate]
  split <;> rfl

/-- The fields of a member that are set. -/
def setOf (m : DynMsg) (f : JField) : List JField := if f.dyn.hasValue m then [f] else []

theorem filter_cons_setOf (m : DynMsg) (f : JField) (fs : List JField) :
    (f :: fs).filter (fun f => f.dyn.hasValue m) = setOf m f ++ fs.filter (fun f => f.dyn.hasValue m) := by
  unfold setOf
  rw [List.filter_cons]
  split <;> simp_all

/-- The text of the members that follow. -/
def following (ms : List (JStr × JTree)) (t : List Byte) : List Byte := if ms.isEmpty then [] else 0x2c :: t

theorem seq_length : ∀ {ms : List (JStr × JTree)} {t : List Byte}, Seq SpellsMember ms t → ms.length ≤ t.length
  | _, _, .nil _ => by simp
  | _, _, .one _ hx _ => by
    obtain ⟨u, rfl⟩ := member_head hx
    simp
    omega
  | _, _, .more _ hx _ hr => by
    obtain ⟨u, rfl⟩ := member_head hx
    have := seq_length hr
    simp at this ⊢
    omega

theorem fields_nodup {T : JTypes} {D : JDesc} (hD : D.Ok T) : D.fields.Nodup := by
  have := hD.distinct
  exact (List.pairwise_map.1 this).imp (fun h e => h (by rw [e]))

theorem all2_cons_right {α β : Type} {R : α → β → Prop} {as : List α} {b : β} {bs : List β} (h : All2 R as (b :: bs)) :
    ∃ a as', as = a :: as' ∧ R a b ∧ All2 R as' bs := by
  cases as with
  | nil => exact h.elim
  | cons a as => exact ⟨a, as, rfl, h.1, h.2⟩

theorem all2_nil_right {α β : Type} {R : α → β → Prop} {as : List α} (h : All2 R as ([] : List β)) : as = [] := by
  cases as with
  | nil => rfl
  | cons a as => exact h.elim

/-- The storage of the repeated field is empty. -/
def Vacant (f : DynField) (m : DynMsg) : Prop :=
  f.elements m = if f.kind.isNum then .nums [] else if f.kind.isStr then .strs [] else .msgs []

theorem vacant_zero {f : DynField} {m : DynMsg} (h : f.storage m = (0, .zero)) : Vacant f m := by
  unfold Vacant DynField.elements
  simp only [h, if_true]

theorem vacant_congr {f : DynField} {m m' : DynMsg} (h : f.storage m' = f.storage m) (v : Vacant f m) : Vacant f m' := by
  unfold Vacant DynField.elements at *
  rw [h]
  exact v

/-- The fields in `P` are read, the slots of the others are untouched, or empty if repeated. -/
structure Partly (same : Nat → DynMsg → DynMsg → Prop) (D : JDesc) (m : DynMsg) (P : List JField) (m' : DynMsg) : Prop where
  length : m'.length = D.slots
  fields : ∀ p ∈ P, p ∈ D.fields ∧ p.dyn.hasValue m = true
  done : ∀ p ∈ P, p.dyn.hasValue m' = true ∧ sameField same p m m'
  rest : ∀ g ∈ D.fields, (∀ p ∈ P, p.dyn.layout.slot ≠ g.dyn.layout.slot) → g.dyn.storage m' = (0, .zero) ∨
    (g.dyn.repeated = true ∧ g.dyn.hasValue m = false ∧ (g.dyn.storage m').1 = 0 ∧ Vacant g.dyn m')

section
variable {T : JTypes} {D : JDesc} (hD : D.Ok T) {same : Nat → DynMsg → DynMsg → Prop} {m : DynMsg}

theorem partly_empty : Partly same D m [] D.dyn.empty where
  length := by simp [DynDesc.empty, JDesc.dyn]
  fields := by simp
  done := by simp
  rest := fun g _ _ => .inl (storage_empty _ _)

theorem sameField_congr {f : JField} {x y : DynMsg} (h : f.dyn.storage y = f.dyn.storage x)
    (hs : sameField same f m x) : sameField same f m y := by
  unfold sameField at *
  rw [value_congr h]
  exact hs

include hD

theorem partly_fresh {P : List JField} {m' : DynMsg} (h : Partly same D m P m') {f : JField} (hf : f ∈ D.fields)
    (hv : f.dyn.hasValue m = true) (hn : f ∉ P) : ∀ p ∈ P, p.dyn.layout.slot ≠ f.dyn.layout.slot := by
  intro p hp e
  obtain ⟨h1, h2⟩ := h.fields p hp
  exact hn (present_slot hD h1 hf h2 hv e ▸ hp)

theorem partly_store {P : List JField} {m' : DynMsg} (h : Partly same D m P m') {f : JField} (hf : f ∈ D.fields)
    (hv : f.dyn.hasValue m = true) (hn : f ∉ P) {st : Nat × Cell} (hst : Stored same f m st) :
    Partly same D m (P ++ [f]) (f.dyn.store m' st) := by
  have hfresh := partly_fresh hD h hf hv hn
  have hlt : f.dyn.layout.slot < m'.length := by rw [h.length]; exact hD.dyn.slot_lt (dyn_mem hD hf)
  refine ⟨by simp [h.length], ?_, ?_, ?_⟩
  · intro p hp
    rcases List.mem_append.1 hp with hp | hp
    · exact h.fields p hp
    · rw [List.mem_singleton.1 hp]; exact ⟨hf, hv⟩
  · intro p hp
    rcases List.mem_append.1 hp with hp | hp
    · have e := storage_store_other (m := m') (f := f.dyn) (g := p.dyn) (fun e => hfresh p hp e.symm) st
      obtain ⟨h1, h2⟩ := h.done p hp
      exact ⟨by rw [hasValue_congr e]; exact h1, sameField_congr e h2⟩
    · rw [List.mem_singleton.1 hp]
      obtain ⟨h1, h2⟩ := hst _ (storage_store_self hlt st)
      exact ⟨h1.trans hv, h2⟩
  · intro g hg hno
    have e := storage_store_other (m := m') (f := f.dyn) (g := g.dyn) (fun e => hno f (by simp) e) st
    rcases h.rest g hg (fun p hp => hno p (by simp [hp])) with h | ⟨h1, h2, h3, h4⟩
    · exact .inl (e.trans h)
    · exact .inr ⟨h1, h2, by rw [e]; exact h3, vacant_congr e h4⟩

/-- Clearing a field that is not set changes nothing that is read. -/
theorem partly_clear {P : List JField} {m' : DynMsg} (h : Partly same D m P m') {f : JField} (hf : f ∈ D.fields)
    (hv : f.dyn.hasValue m = false) (ho : f.dyn.oneof = none) : Partly same D m P (f.dyn.clear m') := by
  have hne : ∀ p ∈ P, p.dyn.layout.slot ≠ f.dyn.layout.slot := by
    intro p hp e
    obtain ⟨h1, h2⟩ := h.fields p hp
    rcases hD.dyn.same_slot (dyn_mem hD h1) (dyn_mem hD hf) e with h | ⟨⟨o, _, h2⟩, _⟩
    · rw [field_eq hD h1 hf h] at h2
      rw [h2] at hv; cases hv
    · rw [ho] at h2; cases h2
  have h0 : (f.dyn.storage m').1 = 0 := by
    rcases h.rest f hf hne with h | ⟨_, _, h, _⟩
    · rw [h]
    · exact h
  have hlt : f.dyn.layout.slot < m'.length := by rw [h.length]; exact hD.dyn.slot_lt (dyn_mem hD hf)
  have hsame : ∀ g : DynField, g.storage (f.dyn.clear m') = g.storage m' := by
    intro g
    unfold DynField.clear
    by_cases e : f.dyn.layout.slot = g.layout.slot
    · rw [storage_store_slot hlt e]
      have : g.storage m' = f.dyn.storage m' := by simp [DynField.storage, e]
      rw [this, ← h0]
    · exact storage_store_other e _
  refine ⟨by simp [DynField.clear, h.length], h.fields, ?_, ?_⟩
  · intro p hp
    obtain ⟨h1, h2⟩ := h.done p hp
    exact ⟨by rw [hasValue_congr (hsame _)]; exact h1, sameField_congr (hsame _) h2⟩
  · intro g hg hno
    rw [hsame]
    exact (h.rest g hg hno).imp id fun ⟨a, b, c, d⟩ => ⟨a, b, c, vacant_congr (hsame _) d⟩

/-- Storing no elements in a repeated field that is not set changes nothing that is read. -/
theorem partly_vacate {P : List JField} {m' : DynMsg} (h : Partly same D m P m') {f : JField} (hf : f ∈ D.fields)
    (hv : f.dyn.hasValue m = false) (hr : f.dyn.repeated = true) {c : Cell}
    (hc : Vacant f.dyn (f.dyn.store m' (0, c))) : Partly same D m P (f.dyn.store m' (0, c)) := by
  have alone : ∀ g ∈ D.fields, f.dyn.layout.slot = g.dyn.layout.slot → g = f := by
    intro g hg e
    rcases hD.dyn.same_slot (dyn_mem hD hg) (dyn_mem hD hf) e.symm with h | ⟨⟨o, _, h2⟩, _⟩
    · exact field_eq hD hg hf h
    · have := (hD.dyn.member_explicit (dyn_mem hD hf) h2).1
      rw [hr] at this; cases this
  have hlt : f.dyn.layout.slot < m'.length := by rw [h.length]; exact hD.dyn.slot_lt (dyn_mem hD hf)
  refine ⟨by simp [h.length], h.fields, ?_, ?_⟩
  · intro p hp
    obtain ⟨h1, h2⟩ := h.done p hp
    have hne : f.dyn.layout.slot ≠ p.dyn.layout.slot := by
      intro e
      obtain ⟨k1, k2⟩ := h.fields p hp
      rw [alone p k1 e, hv] at k2; cases k2
    have e := storage_store_other (m := m') hne (0, c)
    exact ⟨by rw [hasValue_congr e]; exact h1, sameField_congr e h2⟩
  · intro g hg hno
    by_cases e : f.dyn.layout.slot = g.dyn.layout.slot
    · rw [alone g hg e]
      exact .inr ⟨hr, hv, by rw [storage_store_self hlt], hc⟩
    · have e := storage_store_other (m := m') e (0, c)
      rcases h.rest g hg hno with h | ⟨h1, h2, h3, h4⟩
      · exact .inl (e.trans h)
      · exact .inr ⟨h1, h2, by rw [e]; exact h3, vacant_congr e h4⟩

/-- A field that is not set is vacant. -/
theorem partly_vacant {P : List JField} {m' : DynMsg} (h : Partly same D m P m') {f : JField} (hf : f ∈ D.fields)
    (hv : f.dyn.hasValue m = false) (hr : f.dyn.repeated = true) : Vacant f.dyn m' := by
  have hne : ∀ p ∈ P, p.dyn.layout.slot ≠ f.dyn.layout.slot := by
    intro p hp e
    obtain ⟨h1, h2⟩ := h.fields p hp
    rcases hD.dyn.same_slot (dyn_mem hD h1) (dyn_mem hD hf) e with h | ⟨⟨o, _, h2⟩, _⟩
    · rw [field_eq hD h1 hf h] at h2
      rw [h2] at hv; cases hv
    · have := (hD.dyn.member_explicit (dyn_mem hD hf) h2).1
      rw [hr] at this; cases this
  rcases h.rest f hf hne with h | ⟨_, _, _, h⟩
  · exact vacant_zero h
  · exact h

/-- When all fields that are set are read, the message is the same. -/
theorem partly_all {P : List JField} {m' : DynMsg} (h : Partly same D m P m')
    (hall : ∀ f ∈ D.fields, f.dyn.hasValue m = true → f ∈ P) :
    ∀ f ∈ D.fields, f.dyn.hasValue m' = f.dyn.hasValue m ∧ (f.dyn.hasValue m = true → sameField same f m m') := by
  intro f hf
  cases hv : f.dyn.hasValue m with
  | true =>
    obtain ⟨h1, h2⟩ := h.done f (hall f hf hv)
    exact ⟨h1, fun _ => h2⟩
  | false =>
    refine ⟨?_, by intro h; cases h⟩
    by_cases hno : ∀ p ∈ P, p.dyn.layout.slot ≠ f.dyn.layout.slot
    · rcases h.rest f hf hno with h | ⟨h1, _, h3, _⟩
      · exact absent_zero hD hf h
      · simp [DynField.hasValue, slotHasValue, h1, h3]
    · cases h' : f.dyn.hasValue m' with
      | false => rfl
      | true =>
        exfalso
        apply hno
        intro p hp e
        obtain ⟨h1, h2⟩ := h.fields p hp
        have := present_slot hD h1 hf (h.done p hp).1 h' e
        rw [this] at h2
        rw [h2] at hv; cases hv

/-! ## Objects -/

theorem fieldOf_key {f : JField} (hf : f ∈ D.fields) {key : List Byte} (hk : key = f.jsonName ∨ key = f.name) :
    D.fieldOf key = some f := by
  unfold JDesc.fieldOf
  cases e : D.fields.find? (fun g => g.jsonName == key) with
  | some g =>
    have hg := List.mem_of_find?_eq_some e
    have hgk : g.jsonName = key := by simpa using List.find?_some e
    have : g = f := by
      rcases hk with h | h
      · exact hD.keys g hg f hf (.inl (hgk.trans h))
      · exact hD.keys g hg f hf (.inr (.inl (hgk.trans h)))
    rw [this]
  | none =>
    rcases hk with h | h
    · exact absurd (List.find?_eq_none.1 e f hf) (by simp [h])
    · simp only
      cases e' : D.fields.find? (fun g => g.name == key) with
      | some g =>
        have hg := List.mem_of_find?_eq_some e'
        have hgk : g.name = key := by simpa using List.find?_some e'
        rw [hD.keys g hg f hf (.inr (.inr (hgk.trans h)))]
      | none => exact absurd (List.find?_eq_none.1 e' f hf) (by simp [h])

variable {G : Glaze} {utf8 : List Byte → Bool} (L : G.Lawful) {form : Nat → DynMsg → JTree → Prop} {r : JReader}
  (hr : Reads T form same r) (hnull : NullIsValue T form same)
include L hr hnull

theorem read_present {P : List JField} {m' : DynMsg} (h : Partly same D m P m') {f : JField} (hf : f ∈ D.fields)
    (hn : f ∉ P) (hv : f.dyn.hasValue m = true) {j : JTree} (hform : fieldForm T G utf8 anyStyle form f m j)
    {a t rest : List Byte} (ht : Spells j t) (ha : Ws a) (hrest : numChar (look rest) = false) :
    ∃ m'', readField T utf8 G r f m' (a ++ t ++ rest) = .ok (m'', rest) ∧ Partly same D m (P ++ [f]) m'' := by
  have zero : f.dyn.storage m' = (0, .zero) := by
    rcases h.rest f hf (partly_fresh hD h hf hv hn) with h | ⟨_, h, _, _⟩
    · exact h
    · rw [hv] at h; cases h
  obtain ⟨st, h1, h2⟩ := read_field L (hD.tied f hf) (hD.maps f hf) hr hnull hform (fun _ => hv)
    (hD.dyn.ordinal_pos (dyn_mem hD hf)) zero ht ha hrest
  exact ⟨_, h1, partly_store hD h hf hv hn h2⟩

omit hD hr hnull in
theorem readList_nil {Y : Type} {one : List Byte → Res (Y × List Byte)} {opening closing : Byte} (ho : isWs opening = false)
    (hstop : closing = 0x5d ∨ closing = 0x7d) {t : List Byte} (ht : Ws t) (rest : List Byte) :
    readList G one opening closing (opening :: t ++ [closing] ++ rest) = .ok ([], rest) := by
  obtain ⟨ys, h1, h2⟩ := readList_seq (G := G) (X := Unit) (Z := Unit) (Sp := fun _ _ => False) (R := fun _ _ => False)
    (Q := fun _ _ => False) (one := one) ho hstop (fun _ _ h => h.elim) (fun _ _ h => h.elim) (fun _ _ _ _ _ h => h.elim)
    (xs := []) (t := t) (.nil ht) (zs := []) trivial ws_nil rest
  cases ys with
  | nil => simpa using h1
  | cons y ys => exact h2.elim

/-- `null` for a field that is not set, or an empty list. -/
theorem read_unset {P : List JField} {m' : DynMsg} (h : Partly same D m P m') {f : JField} (hf : f ∈ D.fields)
    (hv : f.dyn.hasValue m = false) {j : JTree}
    (hj : (f.dyn.oneof = none ∧ f.isValue T = false ∧ j = .null) ∨ (f.dyn.repeated = true ∧ j = f.emptyTree T))
    {t rest : List Byte} (ht : Spells j t) (hrest : numChar (look rest) = false) :
    ∃ m'', readField T utf8 G r f m' (t ++ rest) = .ok (m'', rest) ∧ Partly same D m P m'' := by
  rcases hj with ⟨ho, hval, rfl⟩ | ⟨hrep, rfl⟩
  · cases ht
    refine ⟨f.dyn.clear m', ?_, partly_clear hD h hf hv ho⟩
    unfold readField
    have := readNull_null (rest := rest) ws_nil
    rw [List.nil_append] at this
    rw [this]
    simp only [res_bind_ok]
    have hset : setNull T f m' = .ok (f.dyn.clear m') := by
      unfold setNull
      unfold JField.isValue at hval
      split
      · rename_i e
        rw [e] at hval
        rw [if_neg (by simpa using hval)]
      · rfl
    rw [hset]
    rfl
  · have vac := partly_vacant hD h hf hv hrep
    have tied := hD.tied f hf
    have hlt : f.dyn.layout.slot < m'.length := by rw [h.length]; exact hD.dyn.slot_lt (dyn_mem hD hf)
    have ne : f.emptyTree T ≠ .null := by
      unfold JField.emptyTree
      split
      · split <;> simp
      · simp
    have null : readNull (t ++ rest) = .ok none := by
      have := readNull_other (rest := rest) ne ht ws_nil
      rwa [List.nil_append] at this
    have arr : ∀ {Y : Type} (one : List Byte → Res (Y × List Byte)), f.emptyTree T = .arr [] →
        readList G one 0x5b 0x5d (t ++ rest) = .ok ([], rest) := by
      intro Y one e
      rw [e] at ht
      cases ht with
      | arr hitems =>
        cases seq_of_items hitems with
        | nil ha => exact readList_nil L rfl (.inl rfl) ha rest
    unfold readField
    rw [null]
    simp only [res_bind_ok, hrep, if_true]
    have stored : ∀ c : Cell, f.dyn.storage (f.dyn.store m' (0, c)) = (0, c) := fun c => storage_store_self hlt _
    have nums : f.dyn.kind.isNum = true → Vacant f.dyn (f.dyn.store m' (0, .nums [])) ∧ f.dyn.elements m' = .nums [] := by
      intro hk
      unfold Vacant at *
      rw [if_pos hk] at vac ⊢
      refine ⟨?_, vac⟩
      unfold DynField.elements
      simp [stored, hk]
    have strs : f.dyn.kind.isStr = true → Vacant f.dyn (f.dyn.store m' (0, .strs [])) ∧ f.dyn.elements m' = .strs [] := by
      intro hk
      have hn : f.dyn.kind.isNum = false := by
        revert hk
        cases f.dyn.kind with
        | scalar k => cases k <;> simp [Kind.isNum, Kind.isStr]
        | _ => simp [Kind.isNum]
      unfold Vacant at *
      rw [if_neg (by simp [hn]), if_pos hk] at vac ⊢
      refine ⟨?_, vac⟩
      unfold DynField.elements
      simp [stored, hk, hn]
    have msgs : ∀ id, f.dyn.kind.msgType = some id →
        Vacant f.dyn (f.dyn.store m' (0, .msgs [])) ∧ f.dyn.elements m' = .msgs [] := by
      intro id hk
      have hn : f.dyn.kind.isNum = false ∧ f.dyn.kind.isStr = false := by
        revert hk
        unfold Kind.isNum Kind.isStr Kind.msgType
        cases f.dyn.kind <;> simp
      unfold Vacant at *
      rw [if_neg (by simp [hn.1]), if_neg (by simp [hn.2])] at vac ⊢
      refine ⟨?_, vac⟩
      unfold DynField.elements
      simp [stored, hn]
    unfold readRepeated
    unfold JField.tied at tied
    cases e : f.ty with
    | msg id =>
      rw [e] at tied
      obtain ⟨h1, h2⟩ := msgs id tied
      refine ⟨_, ?_, partly_vacate hD h hf hv hrep h1⟩
      dsimp only
      split
      · rename_i he
        have et : f.emptyTree T = .obj [] := by simp [JField.emptyTree, e, he]
        rw [et] at ht
        cases ht with
        | obj hm =>
          cases seq_of_members hm with
          | nil ha =>
            rw [readList_nil L rfl (.inr rfl) ha rest]
            simp only [res_bind_ok, h2]
            rfl
      · rename_i he
        rw [arr _ (by simp [JField.emptyTree, e, he])]
        simp only [res_bind_ok, h2]
        rfl
    | string =>
      rw [e] at tied
      obtain ⟨h1, h2⟩ := strs tied
      refine ⟨_, ?_, partly_vacate hD h hf hv hrep h1⟩
      simp only [arr _ (by simp [JField.emptyTree, e] : f.emptyTree T = .arr []), res_bind_ok, h2]
      rfl
    | bytes =>
      rw [e] at tied
      obtain ⟨h1, h2⟩ := strs tied
      refine ⟨_, ?_, partly_vacate hD h hf hv hrep h1⟩
      simp only [arr _ (by simp [JField.emptyTree, e] : f.emptyTree T = .arr []), res_bind_ok, h2]
      rfl
    | _ =>
      rw [e] at tied
      obtain ⟨h1, h2⟩ := nums tied
      refine ⟨_, ?_, partly_vacate hD h hf hv hrep h1⟩
      simp only [arr _ (by simp [JField.emptyTree, e] : f.emptyTree T = .arr []), res_bind_ok, h2]
      rfl

theorem read_member {P : List JField} {m' : DynMsg} (h : Partly same D m P m') {f : JField} (hf : f ∈ D.fields)
    {p : JStr × JTree} (hn : f.dyn.hasValue m = true → f ∉ P)
    (hform : memberForm T anyStyle (fun f => fieldForm T G utf8 anyStyle form f m) m f p)
    {t rest : List Byte} (ht : SpellsMember p t) (hrest : numChar (look rest) = false) :
    ∃ m'', Partly same D m (P ++ setOf m f) m'' ∧
      (∀ fuel, readMembers T utf8 G r D (fuel + 1) true m' (t ++ rest) =
        readMembers T utf8 G r D fuel false m'' (skipWs rest)) ∧
      (∀ fuel a, Ws a → readMembers T utf8 G r D (fuel + 1) false m' (0x2c :: (a ++ t ++ rest)) =
        readMembers T utf8 G r D fuel false m'' (skipWs rest)) := by
  obtain ⟨hk, hp, hform⟩ := hform
  cases ht with
  | @mk k x s a b t hs ha hb ht =>
    obtain ⟨hplain, rfl⟩ := hs.2 hp
    have key : ∀ m'', readField T utf8 G r f m' (t ++ rest) = .ok (m'', rest) → ∀ fuel,
        (do
          let (key, s) ← G.readView (0x22 :: k.text ++ [0x22] ++ a ++ 0x3a :: b ++ t ++ rest)
          let s ← readColon s
          match D.fieldOf key with
          | none => .err .badMessage
          | some f => do
            let (m, s) ← readField T utf8 G r f m' s
            readMembers T utf8 G r D fuel false m (skipWs s)) =
        readMembers T utf8 G r D fuel false m'' (skipWs rest) := by
      intro m'' h fuel
      have hview := L.readView k.text (a ++ 0x3a :: (b ++ (t ++ rest))) hplain
      have hcol : readColon (a ++ 0x3a :: (b ++ (t ++ rest))) = .ok (t ++ rest) := by
        unfold readColon
        rw [skipWs_starts ha rfl]
        simp only [expect_cons, res_bind_ok]
        rw [← List.append_assoc, skipWs_spells hb ht]
      have e : (0x22 :: k.text ++ [0x22] ++ a ++ 0x3a :: b ++ t ++ rest : List Byte) =
          0x22 :: k.text ++ 0x22 :: (a ++ 0x3a :: (b ++ (t ++ rest))) := by simp
      rw [e, hview]
      simp only [res_bind_ok, hcol, fieldOf_key hD hf hk, h]
    have fin : ∀ m'', readField T utf8 G r f m' (t ++ rest) = .ok (m'', rest) →
        (∀ fuel, readMembers T utf8 G r D (fuel + 1) true m' (0x22 :: k.text ++ [0x22] ++ a ++ 0x3a :: b ++ t ++ rest) =
          readMembers T utf8 G r D fuel false m'' (skipWs rest)) ∧
        (∀ fuel a', Ws a' → readMembers T utf8 G r D (fuel + 1) false m'
            (0x2c :: (a' ++ (0x22 :: k.text ++ [0x22] ++ a ++ 0x3a :: b ++ t) ++ rest)) =
          readMembers T utf8 G r D fuel false m'' (skipWs rest)) := by
      intro m'' h
      constructor
      · intro fuel
        rw [readMembers, if_neg (by simp only [List.cons_append, look_cons]; decide)]
        exact key m'' h fuel
      · intro fuel a' ha'
        rw [readMembers, if_neg (by simp only [look_cons]; decide), ← key m'' h fuel]
        simp only [Bool.false_eq_true, if_false, expect_cons, res_bind_ok]
        have : skipWs (a' ++ (0x22 :: k.text ++ [0x22] ++ a ++ 0x3a :: b ++ t) ++ rest) =
            0x22 :: k.text ++ [0x22] ++ a ++ 0x3a :: b ++ t ++ rest := by
          have := skipWs_starts ha' (show isWs 0x22 = false from rfl) (k.text ++ [0x22] ++ a ++ 0x3a :: b ++ t ++ rest)
          simpa only [List.cons_append, List.append_assoc] using this
        rw [this]
        rfl
    rcases hform with ⟨hv, hform⟩ | ⟨_, hv, hx⟩
    · obtain ⟨m'', h1, h2⟩ := read_present hD L hr hnull h hf (hn hv) hv hform ht ws_nil hrest
      rw [List.nil_append] at h1
      exact ⟨m'', by simpa [setOf, hv] using h2, fin m'' h1⟩
    · obtain ⟨m'', h1, h2⟩ := read_unset hD L hr hnull h hf hv hx ht hrest
      exact ⟨m'', by simpa [setOf, hv] using h2, fin m'' h1⟩

theorem read_members (rest : List Byte) {ms : List (JStr × JTree)} {t : List Byte} (hseq : Seq SpellsMember ms t) :
    ∀ {fs : List JField} {P : List JField} {m' : DynMsg}, Partly same D m P m' → (∀ f ∈ fs, f ∈ D.fields) →
      (P ++ fs.filter fun f => f.dyn.hasValue m).Nodup →
      All2 (memberForm T anyStyle (fun f => fieldForm T G utf8 anyStyle form f m) m) fs ms →
      ∀ fuel, ms.length < fuel →
      ∃ m'', readMembers T utf8 G r D fuel false m' (following ms t ++ 0x7d :: rest) = .ok (m'', rest) ∧
        Partly same D m (P ++ fs.filter fun f => f.dyn.hasValue m) m'' := by
  have fresh : ∀ {f : JField} {fs P : List JField}, (P ++ (f :: fs).filter fun f => f.dyn.hasValue m).Nodup →
      f.dyn.hasValue m = true → f ∉ P := by
    intro f fs P hnd hv hin
    exact (List.nodup_append.1 hnd).2.2 f hin f (by simp [hv]) rfl
  induction hseq with
  | nil ha =>
    intro fs P m' h _ _ hall fuel hfuel
    cases all2_nil_right hall
    obtain ⟨fuel, rfl⟩ : ∃ k, fuel = k + 1 := ⟨fuel - 1, by simp at hfuel; omega⟩
    refine ⟨m', ?_, by simpa using h⟩
    rw [readMembers]
    simp [following]
  | @one p a t b ha hx hb =>
    intro fs P m' h hmem hnd hall fuel hfuel
    obtain ⟨f, fs, rfl, hf, hrest⟩ := all2_cons_right hall
    cases all2_nil_right hrest
    obtain ⟨fuel, rfl⟩ : ∃ k, fuel = k + 1 + 1 := ⟨fuel - 2, by simp at hfuel; omega⟩
    obtain ⟨m'', h1, _, h3⟩ := read_member hD L hr hnull h (hmem f (by simp)) (fresh hnd) hf hx
      (rest := b ++ 0x7d :: rest) (numChar_ws hb rfl _)
    refine ⟨m'', ?_, by rw [filter_cons_setOf]; simpa using h1⟩
    have e : following [p] (a ++ t ++ b) ++ 0x7d :: rest = 0x2c :: (a ++ t ++ (b ++ 0x7d :: rest)) := by
      simp [following]
    rw [e, h3 _ a ha, skipWs_starts hb rfl, readMembers]
    simp
  | @more p q ms a t b r' ha hx hb hrr ih =>
    intro fs P m' h hmem hnd hall fuel hfuel
    obtain ⟨f, fs, rfl, hf, hrest⟩ := all2_cons_right hall
    obtain ⟨fuel, rfl⟩ : ∃ k, fuel = k + 1 := ⟨fuel - 1, by omega⟩
    obtain ⟨m1, h1, _, h3⟩ := read_member hD L hr hnull h (hmem f (by simp)) (fresh hnd) hf hx
      (rest := b ++ 0x2c :: (r' ++ 0x7d :: rest)) (numChar_ws hb rfl _)
    rw [filter_cons_setOf, ← List.append_assoc] at hnd ⊢
    obtain ⟨m'', h4, h5⟩ := ih h1 (fun g hg => hmem g (by simp [hg])) hnd hrest fuel
      (by rw [List.length_cons] at hfuel; omega)
    refine ⟨m'', ?_, h5⟩
    have e : following (p :: q :: ms) (a ++ t ++ b ++ 0x2c :: r') ++ 0x7d :: rest =
        0x2c :: (a ++ t ++ (b ++ 0x2c :: (r' ++ 0x7d :: rest))) := by
      simp [following]
    rw [e, h3 _ a ha, skipWs_starts hb rfl]
    simpa [following] using h4

theorem read_object {j : JTree} (hform : objectForm T anyStyle (fun f => fieldForm T G utf8 anyStyle form f m) D m j)
    {a t rest : List Byte} (ht : Spells j t) (ha : Ws a) :
    ∃ m', readObject T utf8 G r D D.dyn.empty (a ++ t ++ rest) = .ok (m', rest) ∧ m'.length = D.slots ∧
      ∀ f ∈ D.fields, f.dyn.hasValue m' = f.dyn.hasValue m ∧ (f.dyn.hasValue m = true → sameField same f m m') := by
  obtain ⟨fs, ms, hall, hmem, hperm, rfl⟩ := hform
  simp only [anyStyle, Bool.false_eq_true, if_false] at hperm
  have hnd : (fs.filter fun f => f.dyn.hasValue m).Nodup :=
    hperm.nodup_iff.2 ((fields_nodup hD).filter _)
  have final : ∀ {m'' : DynMsg}, Partly same D m (fs.filter fun f => f.dyn.hasValue m) m'' →
      ∀ f ∈ D.fields, f.dyn.hasValue m'' = f.dyn.hasValue m ∧ (f.dyn.hasValue m = true → sameField same f m m'') := by
    intro m'' h
    refine partly_all hD h (fun f hf hv => hperm.mem_iff.2 ?_)
    simp [hf, hv]
  cases ht with
  | obj hm =>
    rename_i t
    have hseq := seq_of_members hm
    unfold readObject
    have e : a ++ (0x7b :: t ++ [0x7d]) ++ rest = a ++ 0x7b :: (t ++ 0x7d :: rest) := by simp
    rw [e, skipWs_starts ha rfl]
    simp only [expect_cons, res_bind_ok]
    obtain ⟨t', hseq', hstrip⟩ := seq_strip (fun _ _ h => by obtain ⟨u, e⟩ := member_head h; exact ⟨_, u, e, rfl⟩) hseq
      (show isWs 0x7d = false from rfl) rest
    have hlen : ms.length < (skipWs (t ++ 0x7d :: rest)).length + 1 := by
      rw [hstrip]
      have := seq_length hseq'
      simp
      omega
    generalize hfuel : (skipWs (t ++ 0x7d :: rest)).length + 1 = fuel at hlen ⊢
    cases hseq with
    | nil ha =>
      cases all2_nil_right hall
      obtain ⟨fuel, rfl⟩ : ∃ k, fuel = k + 1 := ⟨fuel - 1, by omega⟩
      rw [skipWs_starts ha rfl, readMembers]
      have := partly_empty (D := D) (m := m) (same := same)
      exact ⟨_, by simp, this.length, final this⟩
    | @one p a' t b ha' hx hb =>
      obtain ⟨f, fs, rfl, hf, hrest⟩ := all2_cons_right hall
      cases all2_nil_right hrest
      obtain ⟨fuel, rfl⟩ : ∃ k, fuel = k + 1 + 1 := ⟨fuel - 2, by simp at hlen; omega⟩
      obtain ⟨m'', h1, h2, _⟩ := read_member hD L hr hnull (partly_empty (D := D)) (hmem f (by simp)) (by simp) hf hx
        (rest := b ++ 0x7d :: rest) (numChar_ws hb rfl _)
      have hP : Partly same D m ([f].filter fun f => f.dyn.hasValue m) m'' := by
        rw [filter_cons_setOf]
        simpa using h1
      refine ⟨m'', ?_, hP.length, final hP⟩
      obtain ⟨u, hu⟩ := member_head hx
      have e : skipWs (a' ++ t ++ b ++ 0x7d :: rest) = t ++ (b ++ 0x7d :: rest) := by
        rw [hu]
        simpa using skipWs_starts ha' (show isWs 0x22 = false from rfl) (u ++ (b ++ 0x7d :: rest))
      rw [e, h2, skipWs_starts hb rfl, readMembers]
      simp
    | @more p q ms a' t b r' ha' hx hb hrr =>
      obtain ⟨f, fs, rfl, hf, hrest⟩ := all2_cons_right hall
      obtain ⟨fuel, rfl⟩ : ∃ k, fuel = k + 1 := ⟨fuel - 1, by omega⟩
      obtain ⟨m1, h1, h2, _⟩ := read_member hD L hr hnull (partly_empty (D := D)) (hmem f (by simp)) (by simp) hf hx
        (rest := b ++ 0x2c :: (r' ++ 0x7d :: rest)) (numChar_ws hb rfl _)
      rw [filter_cons_setOf] at hnd final
      obtain ⟨m'', h4, h5⟩ := read_members hD L hr hnull rest hrr h1 (fun g hg => hmem g (by simp [hg]))
        (by simpa using hnd) hrest fuel (by rw [List.length_cons] at hlen; omega)
      refine ⟨m'', ?_, h5.length, final (by simpa using h5)⟩
      obtain ⟨u, hu⟩ := member_head hx
      have e : skipWs (a' ++ t ++ b ++ 0x2c :: r' ++ 0x7d :: rest) = t ++ (b ++ 0x2c :: (r' ++ 0x7d :: rest)) := by
        rw [hu]
        simpa using skipWs_starts ha' (show isWs 0x22 = false from rfl) (u ++ (b ++ 0x2c :: (r' ++ 0x7d :: rest)))
      rw [e, h2, skipWs_starts hb rfl]
      simpa [following] using h4

end

end HppProto.Json
