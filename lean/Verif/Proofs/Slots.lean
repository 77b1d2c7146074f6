import Verif.Model.Slots

/-! Helper lemmas for `Verif/Props/Slots.lean`. -/

namespace HppProto

/-- Field `i` is a member of oneof `o`. -/
def Member (fields : List SlotField) (i o : Nat) : Prop :=
  ∃ f, fields[i]? = some f ∧ f.oneof = some o

theorem Member.lt {fields : List SlotField} {i o : Nat} (h : Member fields i o) :
    i < fields.length := by
  obtain ⟨f, hf, _⟩ := h
  exact (List.getElem?_eq_some_iff.1 hf).1

theorem Member.unique {fields : List SlotField} {i o o' : Nat} (h : Member fields i o)
    (h' : Member fields i o') : o = o' := by
  obtain ⟨f, hf, e⟩ := h
  obtain ⟨g, hg, e'⟩ := h'
  rw [hf] at hg; cases hg
  rw [e] at e'; exact Option.some.inj e'

theorem member_snoc {pre : List SlotField} {f : SlotField} {i o : Nat} :
    Member (pre ++ [f]) i o ↔ Member pre i o ∨ (i = pre.length ∧ f.oneof = some o) := by
  unfold Member
  constructor
  · rintro ⟨g, hg, e⟩
    rw [List.getElem?_append] at hg
    by_cases h : i < pre.length
    · rw [if_pos h] at hg; exact Or.inl ⟨g, hg, e⟩
    · rw [if_neg h] at hg
      have h0 : i - pre.length = 0 := by
        have := (List.getElem?_eq_some_iff.1 hg).1
        simp at this; omega
      rw [h0] at hg
      cases hg
      exact Or.inr ⟨by omega, e⟩
  · rintro (⟨g, hg, e⟩ | ⟨rfl, e⟩)
    · refine ⟨g, ?_, e⟩
      have := (List.getElem?_eq_some_iff.1 hg).1
      rw [List.getElem?_append_left this]; exact hg
    · exact ⟨f, by simp, e⟩

theorem member_append {pre post : List SlotField} {i o : Nat} (h : Member pre i o) :
    Member (pre ++ post) i o := by
  obtain ⟨f, hf, e⟩ := h
  refine ⟨f, ?_, e⟩
  rw [List.getElem?_append_left (List.getElem?_eq_some_iff.1 hf).1]; exact hf

theorem getElem?_snoc {α} {L : List α} {l x : α} {i : Nat} :
    (L ++ [l])[i]? = some x ↔ L[i]? = some x ∨ (i = L.length ∧ x = l) := by
  rw [List.getElem?_append]
  by_cases h : i < L.length
  · rw [if_pos h]
    constructor
    · exact Or.inl
    · rintro (h' | ⟨rfl, _⟩)
      · exact h'
      · omega
  · rw [if_neg h, List.getElem?_eq_none (by omega : L.length ≤ i)]
    constructor
    · intro e
      have h0 : i - L.length = 0 := by
        have := (List.getElem?_eq_some_iff.1 e).1
        simp at this; omega
      rw [h0] at e
      cases e
      exact Or.inr ⟨by omega, rfl⟩
    · rintro (h' | ⟨rfl, rfl⟩)
      · cases h'
      · simp

/-- Number of members of a oneof. -/
def members (fields : List SlotField) (o : Nat) : Nat :=
  fields.countP fun f => f.oneof == some o

theorem members_snoc (pre : List SlotField) (f : SlotField) (o : Nat) :
    members (pre ++ [f]) o = members pre o + if f.oneof = some o then 1 else 0 := by
  unfold members
  rw [List.countP_append]
  by_cases h : f.oneof = some o <;> simp [h]

theorem members_zero {pre : List SlotField} {o : Nat} (h : ¬ ∃ i, Member pre i o) :
    members pre o = 0 := by
  unfold members
  rw [List.countP_eq_zero]
  intro f hf e
  obtain ⟨i, hi, e'⟩ := List.getElem_of_mem hf
  exact h ⟨i, f, by rw [List.getElem?_eq_getElem hi, e'], by simpa using e⟩

/-- The state of the layout after a prefix of the fields. -/
structure Laid (count : Nat) (pre : List SlotField) (L : List SlotLayout) (s : SlotState) :
    Prop where
  len : L.length = pre.length
  cnt : s.oneofCount = count
  slen : s.started.length = count
  started : ∀ o, o < count → (s.started.getD o false = true ↔ ∃ i, Member pre i o)
  prev : s.prevOneof = count ∧ (∀ o, ¬ Member pre (pre.length - 1) o) ∨
    s.prevOneof < count ∧ Member pre (pre.length - 1) s.prevOneof
  bound : ∀ l ∈ L, l.slot < s.curSlot
  full : ∀ k, k < s.curSlot → ∃ l ∈ L, l.slot = k
  share : ∀ i j li lj, L[i]? = some li → L[j]? = some lj →
    (li.slot = lj.slot ↔ i = j ∨ ∃ o, Member pre i o ∧ Member pre j o)
  plain : ∀ (i : Nat) f l, pre[i]? = some f → L[i]? = some l → f.oneof = none →
    l.ordinal = (if f.repeated then 0 else 1) ∧ l.mask = 0 ∧ l.bias = (i : Int)
  memb : ∀ i o l, Member pre i o → L[i]? = some l →
    2 ≤ l.ordinal ∧ l.ordinal ≤ 65535 ∧ l.mask = 2 ^ 32 - 1 ∧ l.bias = (i : Int) - l.ordinal
  run : ∀ i j o li lj, Member pre i o → Member pre j o → L[i]? = some li → L[j]? = some lj →
    (li.ordinal : Int) - lj.ordinal = (i : Int) - j
  last : ∀ o, Member pre (pre.length - 1) o → ∃ l, L[pre.length - 1]? = some l ∧
    l.slot = s.curSlot - 1 ∧ s.nextOrdinal = l.ordinal
  contig : ∀ i j k o, i ≤ j → j ≤ k → Member pre i o → Member pre k o → Member pre j o
  cntEq : ∀ o, Member pre (pre.length - 1) o → members pre o + 1 = s.nextOrdinal
  cntLe : ∀ o, members pre o ≤ 65534

theorem laid_init (count : Nat) : Laid count [] [] (SlotState.init count) where
  len := rfl
  cnt := rfl
  slen := by simp [SlotState.init]
  started := by
    intro o ho
    simp [SlotState.init, List.getD_eq_getElem?_getD, ho, Member]
  prev := Or.inl ⟨rfl, by simp [Member]⟩
  bound := by simp
  full := by simp [SlotState.init]
  share := by simp
  plain := by simp
  memb := by simp
  run := by simp
  last := by simp [Member]
  contig := by simp [Member]
  cntEq := by simp [Member]
  cntLe := by simp [members]

/-- One iteration of the loop. -/
def layoutStep (f : SlotField) (s : SlotState) (i : Nat) : Option (SlotLayout × SlotState) :=
  match f.oneof with
  | some o => setupOneof o s i
  | none => some (setupPlain f.repeated s i)

theorem layoutLoop_cons (f : SlotField) (fs : List SlotField) (s : SlotState) (i : Nat) :
    layoutLoop (f :: fs) s i = match layoutStep f s i with
      | none => none
      | some (l, s) => match layoutLoop fs s (i + 1) with
        | none => none
        | some (ls, s) => some (l :: ls, s) := rfl

theorem Laid.getLast {count pre L s} (h : Laid count pre L s) (i : Nat) {l} (hl : L[i]? = some l) :
    i < pre.length := by
  rw [← h.len]; exact (List.getElem?_eq_some_iff.1 hl).1

theorem Laid.plainStep {count pre L s} (h : Laid count pre L s) {f : SlotField}
    (hf : f.oneof = none) :
    Laid count (pre ++ [f]) (L ++ [(setupPlain f.repeated s pre.length).1])
      (setupPlain f.repeated s pre.length).2 := by
  have hm : ∀ i o, Member (pre ++ [f]) i o ↔ Member pre i o := by
    intro i o; rw [member_snoc]; simp [hf]
  have hlast : ∀ o, ¬ Member (pre ++ [f]) ((pre ++ [f]).length - 1) o := by
    intro o hmo
    rw [hm] at hmo
    have := hmo.lt
    simp at this
  refine
    { len := by simp [h.len]
      cnt := h.cnt
      slen := h.slen
      started := ?_
      prev := Or.inl ⟨h.cnt, hlast⟩
      bound := ?_
      full := ?_
      share := ?_
      plain := ?_
      memb := ?_
      run := ?_
      last := fun o ho => absurd ho (hlast o)
      contig := ?_
      cntEq := fun o ho => absurd ho (hlast o)
      cntLe := ?_ }
  · intro o ho
    simp only [hm]
    exact h.started o ho
  · intro l hl
    rcases List.mem_append.1 hl with hl | hl
    · have := h.bound l hl
      simp only [setupPlain]; omega
    · rw [List.mem_singleton.1 hl]; simp only [setupPlain]; omega
  · intro k hk
    simp only [setupPlain] at hk
    by_cases e : k < s.curSlot
    · obtain ⟨l, hl, e'⟩ := h.full k e
      exact ⟨l, by simp [hl], e'⟩
    · exact ⟨_, List.mem_append_right _ (List.mem_singleton_self _), by
        simp only [setupPlain]; omega⟩
  · intro i j li lj hi hj
    simp only [hm]
    rw [getElem?_snoc] at hi hj
    rcases hi with hi | ⟨ei, rfl⟩ <;> rcases hj with hj | ⟨ej, rfl⟩
    · exact h.share i j li lj hi hj
    · have h1 := h.bound li (List.mem_of_getElem? hi)
      have h2 := h.getLast i hi
      rw [h.len] at ej
      constructor
      · intro e; simp only [setupPlain] at e; omega
      · rintro (e | ⟨o, _, hj'⟩)
        · omega
        · have := hj'.lt; omega
    · have h1 := h.bound lj (List.mem_of_getElem? hj)
      have h2 := h.getLast j hj
      rw [h.len] at ei
      constructor
      · intro e; simp only [setupPlain] at e; omega
      · rintro (e | ⟨o, hi', _⟩)
        · omega
        · have := hi'.lt; omega
    · simp [ei, ej]
  · intro i g l hg hl hgo
    rw [getElem?_snoc] at hg hl
    rcases hg with hg | ⟨ei, rfl⟩ <;> rcases hl with hl | ⟨el, rfl⟩
    · exact h.plain i g l hg hl hgo
    · have := (List.getElem?_eq_some_iff.1 hg).1
      rw [h.len] at el; omega
    · have := h.getLast i hl; omega
    · subst ei; exact ⟨rfl, rfl, rfl⟩
  · intro i o l hi hl
    rw [hm] at hi
    rw [getElem?_snoc] at hl
    rcases hl with hl | ⟨el, rfl⟩
    · exact h.memb i o l hi hl
    · have := hi.lt; rw [h.len] at el; omega
  · intro i j o li lj hi hj hli hlj
    rw [hm] at hi hj
    rw [getElem?_snoc] at hli hlj
    rcases hli with hli | ⟨el, rfl⟩
    · rcases hlj with hlj | ⟨el, rfl⟩
      · exact h.run i j o li lj hi hj hli hlj
      · have := hj.lt; rw [h.len] at el; omega
    · have := hi.lt; rw [h.len] at el; omega
  · intro i j k o hij hjk hi hk
    rw [hm] at hi hk ⊢
    exact h.contig i j k o hij hjk hi hk
  · intro o
    rw [members_snoc, hf]
    simpa using h.cntLe o

theorem Laid.oneofStep {count pre L s} (h : Laid count pre L s) {f : SlotField} {o : Nat}
    (hf : f.oneof = some o) (ho : o < count) {l : SlotLayout} {s' : SlotState}
    (e : setupOneof o s pre.length = some (l, s')) : Laid count (pre ++ [f]) (L ++ [l]) s' := by
  have hm : ∀ i p, Member (pre ++ [f]) i p ↔ Member pre i p ∨ (i = pre.length ∧ p = o) := by
    intro i p; rw [member_snoc, hf]
    constructor
    · rintro (h | ⟨h, e⟩)
      · exact Or.inl h
      · exact Or.inr ⟨h, (Option.some.inj e).symm⟩
    · rintro (h | ⟨h, e⟩)
      · exact Or.inl h
      · exact Or.inr ⟨h, by rw [e]⟩
  have hlen1 : (pre ++ [f]).length - 1 = pre.length := by simp
  have hlastm : ∀ p, Member (pre ++ [f]) ((pre ++ [f]).length - 1) p ↔ p = o := by
    intro p
    rw [hlen1, hm]
    constructor
    · rintro (h' | h')
      · have := h'.lt; omega
      · exact h'.2
    · exact fun e => Or.inr ⟨rfl, e⟩
  have hmems : ∀ p, members (pre ++ [f]) p = members pre p + if p = o then 1 else 0 := by
    intro p
    rw [members_snoc, hf]
    by_cases e : p = o
    · simp [e]
    · simp [e, Ne.symm e]
  unfold setupOneof at e
  simp only at e
  by_cases hp : s.prevOneof ≠ o
  · -- the first member of the oneof
    rw [if_pos hp] at e
    by_cases hs : s.started.getD o false = true
    · rw [if_pos hs] at e; cases e
    · rw [if_neg hs] at e
      simp only at e
      rw [if_neg (by decide)] at e
      have hnone : ¬ ∃ i, Member pre i o := fun hex => hs ((h.started o ho).2 hex)
      cases e
      refine
        { len := by simp [h.len]
          cnt := h.cnt
          slen := by simpa using h.slen
          started := ?_
          prev := Or.inr ⟨ho, (hlastm o).2 rfl⟩
          bound := ?_
          full := ?_
          share := ?_
          plain := ?_
          memb := ?_
          run := ?_
          last := ?_
          contig := ?_
          cntEq := ?_
          cntLe := ?_ }
      · intro p hpc
        simp only [List.getD_eq_getElem?_getD, List.getElem?_set, h.slen]
        by_cases e : o = p
        · subst e
          rw [if_pos rfl, if_pos ho]
          exact ⟨fun _ => ⟨pre.length, (hm _ _).2 (Or.inr ⟨rfl, rfl⟩)⟩, fun _ => rfl⟩
        · rw [if_neg e]
          have := h.started p hpc
          rw [List.getD_eq_getElem?_getD] at this
          rw [this]
          constructor
          · rintro ⟨i, hi⟩; exact ⟨i, (hm i p).2 (Or.inl hi)⟩
          · rintro ⟨i, hi⟩
            rcases (hm i p).1 hi with hi | ⟨_, e'⟩
            · exact ⟨i, hi⟩
            · exact absurd e'.symm e
      · intro l hl
        rcases List.mem_append.1 hl with hl | hl
        · have := h.bound l hl; simp only; omega
        · rw [List.mem_singleton.1 hl]; simp only; omega
      · intro k hk
        simp only at hk
        by_cases e : k < s.curSlot
        · obtain ⟨l, hl, e'⟩ := h.full k e
          exact ⟨l, by simp [hl], e'⟩
        · exact ⟨_, List.mem_append_right _ (List.mem_singleton_self _), by simp only; omega⟩
      · intro i j li lj hi hj
        rw [getElem?_snoc] at hi hj
        have key : ∀ k, Member pre k o → False := fun k hk => hnone ⟨k, hk⟩
        rcases hi with hi | ⟨ei, rfl⟩ <;> rcases hj with hj | ⟨ej, rfl⟩
        · have hi' := h.getLast i hi
          have hj' := h.getLast j hj
          rw [h.share i j li lj hi hj]
          constructor
          · rintro (e | ⟨p, h1, h2⟩)
            · exact Or.inl e
            · exact Or.inr ⟨p, (hm i p).2 (Or.inl h1), (hm j p).2 (Or.inl h2)⟩
          · rintro (e | ⟨p, h1, h2⟩)
            · exact Or.inl e
            · rcases (hm i p).1 h1 with h1 | ⟨h1, _⟩
              · rcases (hm j p).1 h2 with h2 | ⟨h2, _⟩
                · exact Or.inr ⟨p, h1, h2⟩
                · omega
              · omega
        · have h1 := h.bound li (List.mem_of_getElem? hi)
          have h2 := h.getLast i hi
          rw [h.len] at ej
          constructor
          · intro e; simp only at e; omega
          · rintro (e | ⟨p, hi', hj'⟩)
            · omega
            · rcases (hm j p).1 hj' with hj' | ⟨_, rfl⟩
              · have := hj'.lt; omega
              · rcases (hm i p).1 hi' with hi' | ⟨hi', _⟩
                · exact (key i hi').elim
                · omega
        · have h1 := h.bound lj (List.mem_of_getElem? hj)
          have h2 := h.getLast j hj
          rw [h.len] at ei
          constructor
          · intro e; simp only at e; omega
          · rintro (e | ⟨p, hi', hj'⟩)
            · omega
            · rcases (hm i p).1 hi' with hi' | ⟨_, rfl⟩
              · have := hi'.lt; omega
              · rcases (hm j p).1 hj' with hj' | ⟨hj', _⟩
                · exact (key j hj').elim
                · omega
        · simp [ei, ej]
      · intro i g l hg hl hgo
        rw [getElem?_snoc] at hg hl
        rcases hg with hg | ⟨ei, rfl⟩
        · rcases hl with hl | ⟨el, rfl⟩
          · exact h.plain i g l hg hl hgo
          · have := (List.getElem?_eq_some_iff.1 hg).1
            rw [h.len] at el; omega
        · rw [hf] at hgo; cases hgo
      · intro i p l hi hl
        rw [getElem?_snoc] at hl
        rcases hl with hl | ⟨el, rfl⟩
        · rcases (hm i p).1 hi with hi | ⟨hi, _⟩
          · exact h.memb i p l hi hl
          · have := h.getLast i hl; omega
        · rw [h.len] at el
          subst el
          refine ⟨by simp, by simp, rfl, rfl⟩
      · intro i j p li lj hi hj hli hlj
        rw [getElem?_snoc] at hli hlj
        rcases (hm i p).1 hi with hi | ⟨hi, rfl⟩
        · rcases (hm j p).1 hj with hj | ⟨hj, rfl⟩
          · have h1 := hi.lt
            have h2 := hj.lt
            rcases hli with hli | ⟨el, _⟩
            · rcases hlj with hlj | ⟨el, _⟩
              · exact h.run i j p li lj hi hj hli hlj
              · rw [h.len] at el; omega
            · rw [h.len] at el; omega
          · exact (hnone ⟨i, hi⟩).elim
        · rcases (hm j p).1 hj with hj | ⟨hj, _⟩
          · exact (hnone ⟨j, hj⟩).elim
          · rcases hli with hli | ⟨_, rfl⟩
            · have := h.getLast i hli; omega
            · rcases hlj with hlj | ⟨_, rfl⟩
              · have := h.getLast j hlj; omega
              · omega
      · intro p _
        exact ⟨_, getElem?_snoc.2 (Or.inr ⟨by rw [hlen1, h.len], rfl⟩), by simp, rfl⟩
      · intro i j k p hij hjk hi hk
        rcases (hm k p).1 hk with hk | ⟨hk, rfl⟩
        · rcases (hm i p).1 hi with hi | ⟨hi, _⟩
          · exact (hm j p).2 (Or.inl (h.contig i j k p hij hjk hi hk))
          · have := hk.lt; omega
        · rcases (hm i p).1 hi with hi | ⟨hi, _⟩
          · exact (hnone ⟨i, hi⟩).elim
          · exact (hm j p).2 (Or.inr ⟨by omega, rfl⟩)
      · intro p hp'
        rw [hlastm] at hp'
        subst hp'
        rw [hmems, members_zero hnone]; simp
      · intro p
        rw [hmems]
        by_cases e : p = o
        · subst e; rw [members_zero hnone]; simp
        · simpa [e] using h.cntLe p
  · -- a further member
    rw [if_neg hp] at e
    simp only at e
    have hp' : s.prevOneof = o := by simpa using hp
    have hlm : Member pre (pre.length - 1) o := by
      rcases h.prev with ⟨h1, _⟩ | ⟨_, h2⟩
      · omega
      · rw [← hp']; exact h2
    have hpos : 0 < pre.length := by have := hlm.lt; omega
    obtain ⟨ll, hll, hslot, hord⟩ := h.last o hlm
    have hcur : ll.slot < s.curSlot := h.bound ll (List.mem_of_getElem? hll)
    have hllm := h.memb _ _ _ hlm hll
    have hcE := h.cntEq o hlm
    by_cases hmax : s.nextOrdinal = 2 ^ 16 - 1
    · rw [if_pos hmax] at e; cases e
    · rw [if_neg hmax] at e
      cases e
      -- membership and slot of the run
      have hslotm : ∀ i li, L[i]? = some li → (li.slot = s.curSlot - 1 ↔ Member pre i o) := by
        intro i li hi
        rw [← hslot, h.share i (pre.length - 1) li ll hi hll]
        constructor
        · rintro (rfl | ⟨p, h1, h2⟩)
          · exact hlm
          · rw [hlm.unique h2]; exact h1
        · intro h1; exact Or.inr ⟨o, h1, hlm⟩
      have hrun : ∀ i li, L[i]? = some li → Member pre i o →
          (li.ordinal : Int) = (s.nextOrdinal : Int) + i - (pre.length : Int) + 1 := by
        intro i li hi hmi
        have := h.run i (pre.length - 1) o li ll hmi hlm hi hll
        rw [hord]
        omega
      refine
        { len := by simp [h.len]
          cnt := h.cnt
          slen := h.slen
          started := ?_
          prev := Or.inr ⟨ho, (hlastm o).2 rfl⟩
          bound := ?_
          full := ?_
          share := ?_
          plain := ?_
          memb := ?_
          run := ?_
          last := ?_
          contig := ?_
          cntEq := ?_
          cntLe := ?_ }
      · intro p hpc
        rw [h.started p hpc]
        constructor
        · rintro ⟨i, hi⟩; exact ⟨i, (hm i p).2 (Or.inl hi)⟩
        · rintro ⟨i, hi⟩
          rcases (hm i p).1 hi with hi | ⟨_, rfl⟩
          · exact ⟨i, hi⟩
          · exact ⟨_, hlm⟩
      · intro l hl
        rcases List.mem_append.1 hl with hl | hl
        · exact h.bound l hl
        · rw [List.mem_singleton.1 hl]; simp only; omega
      · intro k hk
        obtain ⟨l, hl, e'⟩ := h.full k hk
        exact ⟨l, by simp [hl], e'⟩
      · intro i j li lj hi hj
        rw [getElem?_snoc] at hi hj
        rcases hi with hi | ⟨ei, rfl⟩ <;> rcases hj with hj | ⟨ej, rfl⟩
        · have hi' := h.getLast i hi
          have hj' := h.getLast j hj
          rw [h.share i j li lj hi hj]
          constructor
          · rintro (e | ⟨p, h1, h2⟩)
            · exact Or.inl e
            · exact Or.inr ⟨p, (hm i p).2 (Or.inl h1), (hm j p).2 (Or.inl h2)⟩
          · rintro (e | ⟨p, h1, h2⟩)
            · exact Or.inl e
            · rcases (hm i p).1 h1 with h1 | ⟨h1, _⟩
              · rcases (hm j p).1 h2 with h2 | ⟨h2, _⟩
                · exact Or.inr ⟨p, h1, h2⟩
                · omega
              · omega
        · have h2 := h.getLast i hi
          rw [h.len] at ej
          simp only
          rw [hslotm i li hi]
          constructor
          · intro h1
            exact Or.inr ⟨o, (hm i o).2 (Or.inl h1), (hm j o).2 (Or.inr ⟨ej, rfl⟩)⟩
          · rintro (e | ⟨p, hi', hj'⟩)
            · omega
            · rcases (hm j p).1 hj' with hj' | ⟨_, rfl⟩
              · have := hj'.lt; omega
              · rcases (hm i p).1 hi' with hi' | ⟨hi', _⟩
                · exact hi'
                · omega
        · have h2 := h.getLast j hj
          rw [h.len] at ei
          simp only
          rw [eq_comm (a := s.curSlot - 1), hslotm j lj hj]
          constructor
          · intro h1
            exact Or.inr ⟨o, (hm i o).2 (Or.inr ⟨ei, rfl⟩), (hm j o).2 (Or.inl h1)⟩
          · rintro (e | ⟨p, hi', hj'⟩)
            · omega
            · rcases (hm i p).1 hi' with hi' | ⟨_, rfl⟩
              · have := hi'.lt; omega
              · rcases (hm j p).1 hj' with hj' | ⟨hj', _⟩
                · exact hj'
                · omega
        · simp [ei, ej]
      · intro i g l hg hl hgo
        rw [getElem?_snoc] at hg hl
        rcases hg with hg | ⟨ei, rfl⟩
        · rcases hl with hl | ⟨el, rfl⟩
          · exact h.plain i g l hg hl hgo
          · have := (List.getElem?_eq_some_iff.1 hg).1
            rw [h.len] at el; omega
        · rw [hf] at hgo; cases hgo
      · intro i p l hi hl
        rw [getElem?_snoc] at hl
        rcases hl with hl | ⟨el, rfl⟩
        · rcases (hm i p).1 hi with hi | ⟨hi, _⟩
          · exact h.memb i p l hi hl
          · have := h.getLast i hl; omega
        · rw [h.len] at el
          subst el
          refine ⟨by simp only; omega, by simp only; omega, rfl, rfl⟩
      · intro i j p li lj hi hj hli hlj
        rw [getElem?_snoc] at hli hlj
        rcases (hm i p).1 hi with hi | ⟨hi, rfl⟩
        · have h1 := hi.lt
          rcases hli with hli | ⟨el, _⟩
          · rcases (hm j p).1 hj with hj | ⟨hj, rfl⟩
            · have h2 := hj.lt
              rcases hlj with hlj | ⟨el, _⟩
              · exact h.run i j p li lj hi hj hli hlj
              · rw [h.len] at el; omega
            · rcases hlj with hlj | ⟨_, rfl⟩
              · have := h.getLast j hlj; omega
              · have := hrun i li hli hi
                subst hj
                simp only
                omega
          · rw [h.len] at el; omega
        · rcases hli with hli | ⟨_, rfl⟩
          · have := h.getLast i hli; omega
          · rcases (hm j p).1 hj with hj | ⟨hj, _⟩
            · have h2 := hj.lt
              rcases hlj with hlj | ⟨el, _⟩
              · have := hrun j lj hlj hj
                subst hi
                simp only
                omega
              · rw [h.len] at el; omega
            · rcases hlj with hlj | ⟨_, rfl⟩
              · have := h.getLast j hlj; omega
              · omega
      · intro p _
        exact ⟨_, getElem?_snoc.2 (Or.inr ⟨by rw [hlen1, h.len], rfl⟩), by simp, rfl⟩
      · intro i j k p hij hjk hi hk
        rcases (hm k p).1 hk with hk | ⟨hk, rfl⟩
        · rcases (hm i p).1 hi with hi | ⟨hi, _⟩
          · exact (hm j p).2 (Or.inl (h.contig i j k p hij hjk hi hk))
          · have := hk.lt; omega
        · rcases (hm i p).1 hi with hi | ⟨hi, _⟩
          · by_cases hj : j = pre.length
            · exact (hm j p).2 (Or.inr ⟨hj, rfl⟩)
            · exact (hm j p).2 (Or.inl (h.contig i j (pre.length - 1) p hij (by omega) hi hlm))
          · exact (hm j p).2 (Or.inr ⟨by omega, rfl⟩)
      · intro p hp''
        rw [hlastm] at hp''
        subst hp''
        rw [hmems, if_pos rfl]
        simp only
        omega
      · intro p
        rw [hmems]
        by_cases e : p = o
        · subst e; rw [if_pos rfl]; omega
        · simpa [e] using h.cntLe p

/-- Every oneof index is below the number of oneofs, as the descriptor pool checks. -/
def OneofsInRange (count : Nat) (fields : List SlotField) : Prop :=
  ∀ f ∈ fields, ∀ o, f.oneof = some o → o < count

theorem Laid.step {count pre L s} (h : Laid count pre L s) {f : SlotField}
    (hr : ∀ o, f.oneof = some o → o < count) {l : SlotLayout} {s' : SlotState}
    (e : layoutStep f s pre.length = some (l, s')) : Laid count (pre ++ [f]) (L ++ [l]) s' := by
  unfold layoutStep at e
  cases hf : f.oneof with
  | none =>
    rw [hf] at e
    cases e
    exact h.plainStep hf
  | some o =>
    rw [hf] at e
    exact h.oneofStep hf (hr o hf) e

theorem Laid.loop {count} : ∀ {fs pre L s}, Laid count pre L s → OneofsInRange count fs →
    ∀ {ls s'}, layoutLoop fs s pre.length = some (ls, s') → Laid count (pre ++ fs) (L ++ ls) s'
  | [], pre, L, s, h, _, ls, s', e => by
    cases e
    simpa using h
  | f :: fs, pre, L, s, h, hr, ls, s', e => by
    rw [layoutLoop_cons] at e
    cases hs : layoutStep f s pre.length with
    | none => rw [hs] at e; cases e
    | some r =>
      obtain ⟨l, s1⟩ := r
      rw [hs] at e
      simp only at e
      have h1 := h.step (hr f (by simp)) hs
      cases hl : layoutLoop fs s1 (pre.length + 1) with
      | none => rw [hl] at e; cases e
      | some r2 =>
        obtain ⟨ls2, s2⟩ := r2
        rw [hl] at e
        cases e
        have := h1.loop (fs := fs) (fun g hg => hr g (List.mem_cons_of_mem _ hg)) (ls := ls2) (s' := s')
          (by rw [List.length_append, List.length_singleton]; exact hl)
        simpa using this

theorem layoutFields_laid {count : Nat} {fields : List SlotField} (hr : OneofsInRange count fields)
    {ls : List SlotLayout} {n : Nat} (e : layoutFields count fields = some (ls, n)) :
    ∃ s, Laid count fields ls s ∧ s.curSlot = n := by
  unfold layoutFields at e
  rw [Option.map_eq_some_iff] at e
  obtain ⟨⟨ls', s⟩, h, e'⟩ := e
  cases e'
  have := (laid_init count).loop hr (ls := ls') (s' := s) h
  exact ⟨s, by simpa using this, rfl⟩

/-- The loop fails only at a field that breaks one of the two rules. -/
theorem Laid.fails {count pre L s} (h : Laid count pre L s) {f : SlotField}
    (hr : ∀ o, f.oneof = some o → o < count) (e : layoutStep f s pre.length = none) :
    (∃ i j k o, i ≤ j ∧ j ≤ k ∧ Member (pre ++ [f]) i o ∧ Member (pre ++ [f]) k o ∧
      ¬ Member (pre ++ [f]) j o) ∨ ∃ o, 65534 < members (pre ++ [f]) o := by
  unfold layoutStep at e
  cases hf : f.oneof with
  | none => rw [hf] at e; cases e
  | some o =>
    rw [hf] at e
    have ho := hr o hf
    unfold setupOneof at e
    simp only at e
    by_cases hp : s.prevOneof ≠ o
    · rw [if_pos hp] at e
      by_cases hs : s.started.getD o false = true
      · left
        obtain ⟨i, hi⟩ := (h.started o ho).1 hs
        have hlt := hi.lt
        refine ⟨i, pre.length - 1, pre.length, o, by omega, by omega, ?_, ?_, ?_⟩
        · exact member_snoc.2 (Or.inl hi)
        · exact member_snoc.2 (Or.inr ⟨rfl, hf⟩)
        · intro hm
          rcases member_snoc.1 hm with hm | ⟨hm, _⟩
          · rcases h.prev with ⟨_, h2⟩ | ⟨_, h2⟩
            · exact h2 o hm
            · exact hp (h2.unique hm)
          · omega
      · rw [if_neg hs] at e
        simp only at e
        rw [if_neg (by decide)] at e
        cases e
    · rw [if_neg hp] at e
      simp only at e
      by_cases hmax : s.nextOrdinal = 2 ^ 16 - 1
      · right
        have hp' : s.prevOneof = o := by simpa using hp
        have hlm : Member pre (pre.length - 1) o := by
          rcases h.prev with ⟨h1, _⟩ | ⟨_, h2⟩
          · omega
          · rw [← hp']; exact h2
        have := h.cntEq o hlm
        refine ⟨o, ?_⟩
        rw [members_snoc, if_pos hf]
        omega
      · rw [if_neg hmax] at e; cases e

theorem members_append_le (pre post : List SlotField) (o : Nat) :
    members pre o ≤ members (pre ++ post) o := by
  unfold members
  rw [List.countP_append]; omega

theorem Laid.succeeds {count} : ∀ {fs pre L s}, Laid count pre L s → OneofsInRange count fs →
    (∀ i j k o, i ≤ j → j ≤ k → Member (pre ++ fs) i o → Member (pre ++ fs) k o →
      Member (pre ++ fs) j o) →
    (∀ o, members (pre ++ fs) o ≤ 65534) → layoutLoop fs s pre.length ≠ none
  | [], pre, L, s, h, _, _, _ => by simp [layoutLoop]
  | f :: fs, pre, L, s, h, hr, hc, hn => by
    rw [layoutLoop_cons]
    have hassoc : pre ++ f :: fs = pre ++ [f] ++ fs := by simp
    cases hs : layoutStep f s pre.length with
    | none =>
      exfalso
      rcases h.fails (hr f (by simp)) hs with ⟨i, j, k, o, hij, hjk, hi, hk, hj⟩ | ⟨o, ho⟩
      · apply hj
        have hk' := hk.lt
        have := hc i j k o hij hjk (by rw [hassoc]; exact member_append hi)
          (by rw [hassoc]; exact member_append hk)
        rw [hassoc] at this
        obtain ⟨g, hg, e⟩ := this
        rw [List.getElem?_append_left (by omega)] at hg
        exact ⟨g, hg, e⟩
      · have := members_append_le (pre ++ [f]) fs o
        have := hn o
        rw [hassoc] at this
        omega
    | some r =>
      obtain ⟨l, s1⟩ := r
      have h1 := h.step (hr f (by simp)) hs
      have := h1.succeeds (fs := fs) (fun g hg => hr g (List.mem_cons_of_mem _ hg)) (by rw [← hassoc]; exact hc)
        (by rw [← hassoc]; exact hn)
      simp only
      rw [List.length_append, List.length_singleton] at this
      cases hl : layoutLoop fs s1 (pre.length + 1) with
      | none => exact absurd hl this
      | some r2 => simp

end HppProto
