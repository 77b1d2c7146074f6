import Verif.Proofs.Meta

/-! # The entries of a class and the fields of its message -/

namespace HppProto
open Spec

namespace Meta

/-- The kind of value of a field. -/
def kindAt (S : Setup) (p : Pool) (d : MsgDesc) (f : FieldDesc) : Kind := valueKind p (cppType f) (metaOptions S p d f)

/-- The number of the field at whose place the entry for `h` is. -/
def leader (L : List FieldDesc) (h : FieldDesc) : Int :=
  match h.proto.oneofIndex with
  | none => h.proto.number
  | some k => match L.filter (fun g => g.proto.oneofIndex = some k) with
    | [] => h.proto.number
    | g :: _ => g.proto.number

section
variable {S : Setup} {p : Pool} {d : MsgDesc} {L : List FieldDesc} {fresh : Nat → Msg} {w : Bool}

theorem View.number_toNat (V : View p d L) {f : FieldDesc} (hf : f ∈ L) :
    (BitVec.ofInt 32 f.proto.number).toNat = f.proto.number.toNat := by
  have h := (V.ok hf).number
  rw [BitVec.toNat_ofInt]
  have : f.proto.number % ((2 ^ 32 : Nat) : Int) = f.proto.number := Int.emod_eq_of_lt (by omega) (by omega)
  rw [this]

theorem View.number_inj (V : View p d L) {f g : FieldDesc} (hf : f ∈ L) (hg : g ∈ L)
    (h : f.proto.number = g.proto.number) : f = g := by
  have hn : (L.map (fun f => f.proto.number)).Nodup := by
    have := V.fields.numbers
    rw [← V.protos, List.map_map] at this
    exact this
  obtain ⟨a, ha⟩ := List.mem_iff_getElem?.1 hf
  obtain ⟨b, hb⟩ := List.mem_iff_getElem?.1 hg
  have := nodup_map_get hn ha hb h
  subst this
  rw [ha] at hb
  exact Option.some.inj hb

theorem View.toNat_inj (V : View p d L) {f g : FieldDesc} (hf : f ∈ L) (hg : g ∈ L)
    (h : f.proto.number.toNat = g.proto.number.toNat) : f = g := by
  have h1 := (V.ok hf).number
  have h2 := (V.ok hg).number
  exact V.number_inj hf hg (by omega)

theorem slotKind_single {f : FieldDesc} (V : View p d L) (hf : f ∈ L) {h : Holder} {dv : Option Val} {n : Nat} {k : Kind} :
    slotKind n (slotOf S p fresh w (.field f.proto.number h (cppType f) (metaOptions S p d f) dv)) = some k ↔
      f.proto.number.toNat = n ∧ kindAt S p d f = k := by
  unfold slotOf slotKind kindAt
  simp only [V.number_toNat hf]
  split
  · next h => simp [h]
  · next h => simp [h]

theorem find_alt (V : View p d L) : ∀ {M : List FieldDesc}, (∀ f ∈ M, f ∈ L) → ∀ {n : Nat} {k : Kind},
    ((((M.map fun f => (f.proto.number, cppType f, metaOptions S p d f)).map fun a =>
      (BitVec.ofInt 32 a.1, valueKind p a.2.1 a.2.2)).find? (fun a => a.1.toNat = n)).map Prod.snd = some k ↔
      ∃ f ∈ M, f.proto.number.toNat = n ∧ kindAt S p d f = k)
  | [], _, n, k => by simp
  | f :: M, hM, n, k => by
    have ih := find_alt V (M := M) (fun g hg => hM g (.tail _ hg)) (n := n) (k := k)
    have hf := hM f (.head _)
    simp only [List.map_cons, List.find?_cons, V.number_toNat hf]
    by_cases h : f.proto.number.toNat = n
    · simp only [h, decide_true, Option.map_some, Option.some.injEq]
      constructor
      · intro e
        exact ⟨f, .head _, h, e⟩
      · rintro ⟨g, hg, hn, e⟩
        have := V.toNat_inj hf (hM g hg) (by rw [h, hn])
        subst this
        exact e
    · simp only [h, decide_false]
      rw [ih]
      constructor
      · rintro ⟨g, hg, h2⟩
        exact ⟨g, .tail _ hg, h2⟩
      · rintro ⟨g, hg, h2⟩
        rcases List.mem_cons.1 hg with rfl | hg
        · exact absurd h2.1 h
        · exact ⟨g, hg, h2⟩

theorem slotKind_oneof (V : View p d L) {M : List FieldDesc} (hM : ∀ f ∈ M, f ∈ L) {n : Nat} {k : Kind} :
    slotKind n (slotOf S p fresh w (oneofEntry S p d M)) = some k ↔
      ∃ f ∈ M, f.proto.number.toNat = n ∧ kindAt S p d f = k := by
  unfold oneofEntry
  split
  · next f =>
    rw [slotKind_single V (hM f (.head _))]
    simp
  · exact find_alt V hM

/-- What the entry at the place of `f` is. -/
theorem entryAt_some (V : View p d L) (hx : ∀ f ∈ L, f.extendee = none) {f : FieldDesc} (hf : f ∈ L) {e : Entry} :
    entryAt S p d f = some e ↔
      (f.proto.oneofIndex = none ∧ e = fieldEntry S p d f) ∨
      ∃ k rest, f.proto.oneofIndex = some k ∧ L.filter (fun g => g.proto.oneofIndex = some k) = f :: rest ∧
        e = oneofEntry S p d (f :: rest) := by
  unfold entryAt
  cases ho : f.proto.oneofIndex with
  | none => simp [hx f hf, eq_comm]
  | some k =>
    have hm := V.members f hf k ho
    simp only [hm]
    cases hM : L.filter (fun g => g.proto.oneofIndex = some k) with
    | nil => simp [hM]
    | cons g rest =>
      have hg : g ∈ L := by
        have : g ∈ L.filter (fun g => g.proto.oneofIndex = some k) := by rw [hM]; exact .head _
        exact (List.mem_filter.1 this).1
      simp only
      by_cases hn : g.proto.number = f.proto.number
      · rw [if_pos hn]
        have := V.number_inj hg hf hn
        subst this
        constructor
        · intro h
          exact .inr ⟨k, rest, rfl, hM, (Option.some.inj h).symm⟩
        · rintro (⟨h, _⟩ | ⟨k', rest', hk, hM', he⟩)
          · cases h
          · cases hk
            rw [hM] at hM'
            cases hM'
            rw [he]
      · rw [if_neg hn]
        constructor
        · intro h; cases h
        · rintro (⟨h, _⟩ | ⟨k', rest', hk, hM', _⟩)
          · cases h
          · cases hk
            rw [hM] at hM'
            cases hM'
            exact absurd rfl hn

theorem leader_mem {k : Int} {f h : FieldDesc} {rest : List FieldDesc}
    (hM : L.filter (fun g => g.proto.oneofIndex = some k) = f :: rest) (hh : h ∈ f :: rest) :
    h ∈ L ∧ h.proto.oneofIndex = some k ∧ leader L h = f.proto.number := by
  rw [← hM] at hh
  obtain ⟨h1, h2⟩ := List.mem_filter.1 hh
  have h2 : h.proto.oneofIndex = some k := by simpa using h2
  refine ⟨h1, h2, ?_⟩
  unfold leader
  rw [h2]
  simp only [hM]

theorem slot_owner (V : View p d L) (hx : ∀ f ∈ L, f.extendee = none) {f : FieldDesc} (hf : f ∈ L) {e : Entry}
    (he : entryAt S p d f = some e) {n : Nat} {k : Kind} (hk : slotKind n (slotOf S p fresh w e) = some k) :
    ∃ h ∈ L, h.proto.number.toNat = n ∧ leader L h = f.proto.number ∧ kindAt S p d h = k := by
  rcases (entryAt_some V hx hf).1 he with ⟨ho, rfl⟩ | ⟨i, rest, ho, hM, rfl⟩
  · obtain ⟨h1, h2⟩ := (slotKind_single V hf).1 hk
    refine ⟨f, hf, h1, ?_, h2⟩
    unfold leader
    rw [ho]
  · obtain ⟨h, hh, h1, h2⟩ := (slotKind_oneof V (fun g hg => (leader_mem hM hg).1)).1 hk
    obtain ⟨l1, _, l3⟩ := leader_mem hM hh
    exact ⟨h, l1, h1, l3, h2⟩

theorem slot_of_field (V : View p d L) (hx : ∀ f ∈ L, f.extendee = none) {h : FieldDesc} (hh : h ∈ L) :
    ∃ f ∈ L, ∃ e, entryAt S p d f = some e ∧
      slotKind h.proto.number.toNat (slotOf S p fresh w e) = some (kindAt S p d h) := by
  cases ho : h.proto.oneofIndex with
  | none => exact ⟨h, hh, _, (entryAt_some V hx hh).2 (.inl ⟨ho, rfl⟩), (slotKind_single V hh).2 ⟨rfl, rfl⟩⟩
  | some k =>
    have hm : h ∈ L.filter (fun g => g.proto.oneofIndex = some k) := List.mem_filter.2 ⟨hh, by simp [ho]⟩
    cases hM : L.filter (fun g => g.proto.oneofIndex = some k) with
    | nil => rw [hM] at hm; cases hm
    | cons f rest =>
      rw [hM] at hm
      obtain ⟨l1, l2, _⟩ := leader_mem hM (.head _)
      exact ⟨f, l1, _, (entryAt_some V hx l1).2 (.inr ⟨k, rest, l2, hM, rfl⟩),
        (slotKind_oneof V (fun g hg => (leader_mem hM hg).1)).2 ⟨h, hm, rfl, rfl⟩⟩

/-- The slots of a class for the fields `L`. -/
def slotsOf (S : Setup) (p : Pool) (fresh : Nat → Msg) (w : Bool) (d : MsgDesc) (L : List FieldDesc) : List SlotD :=
  (L.filterMap (entryAt S p d)).map (slotOf S p fresh w)

theorem findKind (V : View p d L) (hx : ∀ f ∈ L, f.extendee = none) (n : Nat) (k : Kind) :
    (slotsOf S p fresh w d L).findSome? (slotKind n) = some k ↔
      ∃ f ∈ L, f.proto.number.toNat = n ∧ kindAt S p d f = k := by
  have back : ∀ {k}, (slotsOf S p fresh w d L).findSome? (slotKind n) = some k →
      ∃ f ∈ L, f.proto.number.toNat = n ∧ kindAt S p d f = k := by
    intro k h
    obtain ⟨sd, hs, hk⟩ := List.exists_of_findSome?_eq_some h
    obtain ⟨e, he, rfl⟩ := List.mem_map.1 hs
    obtain ⟨f, hf, he⟩ := List.mem_filterMap.1 he
    obtain ⟨h, h1, h2, _, h3⟩ := slot_owner V hx hf he hk
    exact ⟨h, h1, h2, h3⟩
  refine ⟨back, ?_⟩
  rintro ⟨f, hf, rfl, rfl⟩
  obtain ⟨g, hg, e, he, hk⟩ := slot_of_field (S := S) (fresh := fresh) (w := w) V hx hf
  have hmem : slotOf S p fresh w e ∈ slotsOf S p fresh w d L :=
    List.mem_map.2 ⟨e, List.mem_filterMap.2 ⟨g, hg, he⟩, rfl⟩
  cases hr : (slotsOf S p fresh w d L).findSome? (slotKind f.proto.number.toNat) with
  | none =>
    rw [List.findSome?_eq_none_iff.1 hr _ hmem] at hk
    cases hk
  | some k =>
    obtain ⟨f', hf', h1, h2⟩ := back hr
    rw [V.toNat_inj hf' hf h1] at h2
    rw [h2]

theorem slots_apart (V : View p d L) (hx : ∀ f ∈ L, f.extendee = none) :
    (slotsOf S p fresh w d L).Pairwise fun a b => ∀ n, (slotKind n a).isSome → (slotKind n b).isSome → False := by
  unfold slotsOf
  rw [List.pairwise_map, List.pairwise_filterMap]
  have hn : L.Pairwise (fun f g => f.proto.number ≠ g.proto.number) := by
    have := V.fields.numbers
    rw [← V.protos, List.map_map] at this
    exact List.pairwise_map.1 this
  refine hn.imp_of_mem ?_
  intro f g hf hg hne a ha b hb n h1 h2
  obtain ⟨k1, h1⟩ := Option.isSome_iff_exists.1 h1
  obtain ⟨k2, h2⟩ := Option.isSome_iff_exists.1 h2
  obtain ⟨x, hx1, hx2, hx3, _⟩ := slot_owner V hx hf ha h1
  obtain ⟨y, hy1, hy2, hy3, _⟩ := slot_owner V hx hg hb h2
  have := V.toNat_inj hx1 hy1 (by rw [hx2, hy2])
  subst this
  exact hne (hx3 ▸ hy3)

theorem slots_distinct (V : View p d L) (hx : ∀ f ∈ L, f.extendee = none) (n i j : Nat) (a b : SlotD)
    (hi : (slotsOf S p fresh w d L)[i]? = some a) (hj : (slotsOf S p fresh w d L)[j]? = some b)
    (ha : (slotKind n a).isSome) (hb : (slotKind n b).isSome) : i = j := by
  have hp := List.pairwise_iff_getElem.1 (slots_apart (S := S) (fresh := fresh) (w := w) V hx)
  obtain ⟨hi', ei⟩ := List.getElem?_eq_some_iff.1 hi
  obtain ⟨hj', ej⟩ := List.getElem?_eq_some_iff.1 hj
  rcases Nat.lt_trichotomy i j with h | h | h
  · exact (hp i j hi' hj' h n (by rw [ei]; exact ha) (by rw [ej]; exact hb)).elim
  · exact h
  · exact (hp j i hj' hi' h n (by rw [ej]; exact hb) (by rw [ei]; exact ha)).elim

theorem first_of_entry (V : View p d L) (hx : ∀ f ∈ L, f.extendee = none) {f : FieldDesc} (hf : f ∈ L) {e : Entry}
    (he : entryAt S p d f = some e) : firstOf (slotOf S p fresh w e) = f.proto.number := by
  have hn := (V.ok hf).number
  have e1 : ((BitVec.ofInt 32 f.proto.number).toNat : Int) = f.proto.number := by
    rw [V.number_toNat hf]; omega
  rcases (entryAt_some V hx hf).1 he with ⟨_, rfl⟩ | ⟨_, rest, _, _, rfl⟩
  · exact e1
  · cases rest with
    | nil => exact e1
    | cons g rest => exact e1

theorem entry_leads (V : View p d L) (hx : ∀ f ∈ L, f.extendee = none) {f : FieldDesc} (hf : f ∈ L) :
    (entryAt S p d f).isSome ↔ Leads d.proto.fields f.proto := by
  have hmem : ∀ k, oneofFields d.proto.fields k = (L.filter fun g => g.proto.oneofIndex = some k).map (·.proto) := by
    intro k
    rw [← V.protos]
    unfold oneofFields
    rw [List.filter_map]
    rfl
  constructor
  · intro h k hk
    obtain ⟨e, he⟩ := Option.isSome_iff_exists.1 h
    rcases (entryAt_some V hx hf).1 he with ⟨ho, rfl⟩ | ⟨k', rest, ho, hM, rfl⟩
    · rw [ho] at hk; cases hk
    · rw [ho] at hk
      cases hk
      rw [hmem, hM]
      rfl
  · intro h
    cases ho : f.proto.oneofIndex with
    | none => rw [(entryAt_some V hx hf).2 (.inl ⟨ho, rfl⟩)]; rfl
    | some k =>
      have h := h k ho
      rw [hmem] at h
      cases hM : L.filter (fun g => g.proto.oneofIndex = some k) with
      | nil => rw [hM] at h; cases h
      | cons g rest =>
        rw [hM] at h
        simp only [List.map_cons, List.head?_cons, Option.some.injEq] at h
        have hg : g ∈ L := (leader_mem hM (.head _)).1
        have := V.number_inj hg hf (by rw [h])
        subst this
        rw [(entryAt_some V hx hf).2 (.inr ⟨k, rest, ho, hM, rfl⟩)]
        rfl

theorem filterMap_first {α β : Type} {g : α → Option β} {first : β → Int} {lead : α → Prop} [DecidablePred lead]
    {num : α → Int} : ∀ {L : List α}, (∀ x ∈ L, (g x).isSome ↔ lead x) → (∀ x ∈ L, ∀ y, g x = some y → first y = num x) →
      (L.filterMap g).map first = (L.filter lead).map num
  | [], _, _ => rfl
  | x :: L, h1, h2 => by
    have ih := filterMap_first (L := L) (fun y hy => h1 y (.tail _ hy)) (fun y hy => h2 y (.tail _ hy))
    have hx := h1 x (.head _)
    cases hg : g x with
    | none =>
      rw [hg] at hx
      have : ¬ lead x := fun hl => by cases hx.2 hl
      rw [List.filterMap_cons, hg, List.filter_cons, if_neg (by simp [this])]
      exact ih
    | some y =>
      rw [hg] at hx
      have : lead x := hx.1 rfl
      rw [List.filterMap_cons, hg, List.filter_cons, if_pos (by simp [this])]
      simp only [List.map_cons, h2 x (.head _) y hg, ih]

theorem slots_order (V : View p d L) (hx : ∀ f ∈ L, f.extendee = none) :
    (slotsOf S p fresh w d L).map firstOf =
      (d.proto.fields.filter fun f => decide (Leads d.proto.fields f)).map (·.number) := by
  unfold slotsOf
  rw [List.map_map]
  have := filterMap_first (L := L) (g := entryAt S p d) (first := firstOf ∘ slotOf S p fresh w)
    (lead := fun f => Leads d.proto.fields f.proto) (num := fun f => f.proto.number)
    (fun f hf => entry_leads V hx hf) (fun f hf e he => first_of_entry V hx hf he)
  rw [this]
  conv => rhs; rw [← V.protos, List.filter_map, List.map_map]
  rw [V.protos]
  rfl

end

end Meta
end HppProto
