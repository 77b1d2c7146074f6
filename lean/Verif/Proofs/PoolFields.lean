import Verif.Proofs.PoolLink

/-! # Descriptor pools: the fields of one message -/

namespace HppProto
open Spec

theorem exists_mem_cons {α : Type} {p : α → Prop} {a : α} {l : List α} :
    (∃ x, x ∈ a :: l ∧ p x) ↔ p a ∨ ∃ x, x ∈ l ∧ p x := by simp

/-! ## The checks of the fields -/

theorem validFieldNumber_iff (f : FieldProto) : validFieldNumber f.number = true ↔
    1 ≤ f.number ∧ f.number ≤ 536870911 ∧ ¬ (19000 ≤ f.number ∧ f.number ≤ 19999) := by
  simp only [validFieldNumber, Bool.and_eq_true, Bool.or_eq_true, decide_eq_true_eq]
  omega

theorem fieldOk_iff (f : FieldProto) :
    (validFieldEnums f = true ∧ validFieldNumber f.number = true) ↔ FieldOk f := by
  rw [validFieldNumber_iff]
  simp only [validFieldEnums, Bool.and_eq_true, decide_eq_true_eq]
  constructor
  · rintro ⟨⟨⟨⟨a, b⟩, c⟩, d⟩, e⟩; exact ⟨e, ⟨a, b⟩, ⟨c, d⟩⟩
  · rintro ⟨e, ⟨a, b⟩, ⟨c, d⟩⟩; exact ⟨⟨⟨⟨a, b⟩, c⟩, d⟩, e⟩

/-- The sets after the fields `done`. -/
def seenAfter (done : List FieldProto) (s : Seen) : Seen := done.foldl Seen.with s

theorem seenAfter_numbers (x : Int) : ∀ (done : List FieldProto) (s : Seen),
    x ∈ (seenAfter done s).numbers ↔ x ∈ s.numbers ∨ ∃ g ∈ done, g.number = x
  | [], s => by simp [seenAfter]
  | g :: done, s => by
    have := seenAfter_numbers x done (s.with g)
    rw [seenAfter, List.foldl_cons]
    rw [seenAfter] at this
    rw [this]
    simp only [Seen.with, exists_mem_cons]
    rw [List.mem_cons]
    constructor
    · rintro ((rfl | h) | h)
      · exact .inr (.inl rfl)
      · exact .inl h
      · exact .inr (.inr h)
    · rintro (h | rfl | h)
      · exact .inl (.inr h)
      · exact .inl (.inl rfl)
      · exact .inr h

theorem seenAfter_names (x : List Byte) : ∀ (done : List FieldProto) (s : Seen),
    x ∈ (seenAfter done s).names ↔ x ∈ s.names ∨ ∃ g ∈ done, g.name = x
  | [], s => by simp [seenAfter]
  | g :: done, s => by
    have := seenAfter_names x done (s.with g)
    rw [seenAfter, List.foldl_cons]
    rw [seenAfter] at this
    rw [this]
    simp only [Seen.with, exists_mem_cons]
    rw [List.mem_cons]
    constructor
    · rintro ((rfl | h) | h)
      · exact .inr (.inl rfl)
      · exact .inl h
      · exact .inr (.inr h)
    · rintro (h | rfl | h)
      · exact .inl (.inr h)
      · exact .inl (.inl rfl)
      · exact .inr h

theorem seenAfter_json (x : List Byte) : ∀ (done : List FieldProto) (s : Seen),
    x ∈ (seenAfter done s).jsonNames ↔
      x ∈ s.jsonNames ∨ ∃ g ∈ done, g.jsonName ≠ [] ∧ g.jsonName = x
  | [], s => by simp [seenAfter]
  | g :: done, s => by
    have := seenAfter_json x done (s.with g)
    rw [seenAfter, List.foldl_cons]
    rw [seenAfter] at this
    rw [this]
    simp only [Seen.with, exists_mem_cons]
    have e : (x ∈ if g.jsonName.isEmpty = true then s.jsonNames else g.jsonName :: s.jsonNames) ↔
        x ∈ s.jsonNames ∨ (g.jsonName ≠ [] ∧ g.jsonName = x) := by
      split
      · rename_i h
        have : g.jsonName = [] := by simpa using h
        simp [this]
      · rename_i h
        have : g.jsonName ≠ [] := by simpa using h
        simp only [List.mem_cons, ne_eq, this, not_false_eq_true, true_and]
        constructor
        · rintro (rfl | h)
          · exact .inr rfl
          · exact .inl h
        · rintro (h | rfl)
          · exact .inr h
          · exact .inl rfl
    rw [e, or_assoc]

theorem seenAfter_custom (x : List Byte) : ∀ (done : List FieldProto) (s : Seen),
    x ∈ (seenAfter done s).customNames ↔
      x ∈ s.customNames ∨ ∃ g ∈ done, CustomJson g ∧ g.jsonName = x
  | [], s => by simp [seenAfter]
  | g :: done, s => by
    have := seenAfter_custom x done (s.with g)
    rw [seenAfter, List.foldl_cons]
    rw [seenAfter] at this
    rw [this]
    simp only [Seen.with, exists_mem_cons]
    have e : (x ∈ if hasCustomJsonName g = true then g.jsonName :: s.customNames
        else s.customNames) ↔ x ∈ s.customNames ∨ (CustomJson g ∧ g.jsonName = x) := by
      split
      · rename_i h
        rw [hasCustomJsonName_iff] at h
        simp only [List.mem_cons, h, true_and]
        constructor
        · rintro (rfl | h)
          · exact .inr rfl
          · exact .inl h
        · rintro (h | rfl)
          · exact .inr h
          · exact .inl rfl
      · rename_i h
        rw [hasCustomJsonName_iff] at h
        simp [h]
    rw [e, or_assoc]

/-- Two fields of a message do not get in each other's way. -/
structure Compat (f g : FieldProto) : Prop where
  number : f.number ≠ g.number
  name : f.name ≠ g.name
  left : CustomJson f → f.jsonName ≠ g.name ∧ f.jsonName ≠ g.jsonName
  right : CustomJson g → g.jsonName ≠ f.name ∧ g.jsonName ≠ f.jsonName

theorem Compat.symm {f g : FieldProto} (h : Compat f g) : Compat g f :=
  ⟨h.number.symm, h.name.symm, h.right, h.left⟩

theorem fieldRejected_iff (done : List FieldProto) (f : FieldProto) :
    fieldRejected (seenAfter done {}) f = false ↔ FieldOk f ∧ ∀ g ∈ done, Compat g f := by
  have c1 : ∀ x, (seenAfter done {}).numbers.contains x = true ↔ ∃ g ∈ done, g.number = x := by
    intro x
    rw [List.contains_iff_mem, seenAfter_numbers]; simp
  have c2 : ∀ x, (seenAfter done {}).names.contains x = true ↔ ∃ g ∈ done, g.name = x := by
    intro x
    rw [List.contains_iff_mem, seenAfter_names]; simp
  have c3 : ∀ x, (seenAfter done {}).jsonNames.contains x = true ↔
      ∃ g ∈ done, g.jsonName ≠ [] ∧ g.jsonName = x := by
    intro x
    rw [List.contains_iff_mem, seenAfter_json]; simp
  have c4 : ∀ x, (seenAfter done {}).customNames.contains x = true ↔
      ∃ g ∈ done, CustomJson g ∧ g.jsonName = x := by
    intro x
    rw [List.contains_iff_mem, seenAfter_custom]; simp
  rw [← fieldOk_iff, ← Bool.not_eq_true]
  unfold fieldRejected
  simp only [Bool.or_eq_true, Bool.and_eq_true, c1, c2, c3, c4, hasCustomJsonName_iff, not_or,
    Bool.not_eq_true', Bool.not_eq_false]
  constructor
  · rintro ⟨⟨⟨⟨⟨⟨h1, h2⟩, h3⟩, h4⟩, h5⟩, h6⟩, h7⟩
    refine ⟨⟨h1, h2⟩, fun g hg => ⟨fun e => h3 ⟨g, hg, e⟩, fun e => h4 ⟨g, hg, e⟩,
      fun hc => ⟨fun e => h5 ⟨g, hg, hc, e⟩, fun e => h6 ⟨g, hg, hc, e⟩⟩, fun hc => ⟨?_, ?_⟩⟩⟩
    · exact fun e => h7 ⟨hc, .inl ⟨g, hg, e.symm⟩⟩
    · exact fun e => h7 ⟨hc, .inr ⟨g, hg, by rw [← e]; exact hc.1, e.symm⟩⟩
  · rintro ⟨⟨h1, h2⟩, h⟩
    refine ⟨⟨⟨⟨⟨⟨h1, h2⟩, ?_⟩, ?_⟩, ?_⟩, ?_⟩, ?_⟩
    · rintro ⟨g, hg, e⟩; exact (h g hg).number e
    · rintro ⟨g, hg, e⟩; exact (h g hg).name e
    · rintro ⟨g, hg, hc, e⟩; exact ((h g hg).left hc).1 e
    · rintro ⟨g, hg, hc, e⟩; exact ((h g hg).left hc).2 e
    · rintro ⟨hc, (⟨g, hg, e⟩ | ⟨g, hg, _, e⟩)⟩
      · exact ((h g hg).right hc).1 e.symm
      · exact ((h g hg).right hc).2 e.symm

/-- The field is no member of a oneof or a proper one, in a message with `n` oneofs. -/
def MemberOk (n : Nat) (f : FieldProto) : Prop :=
  ∀ k, f.oneofIndex = some k → f.label ≠ 3 ∧ 0 ≤ k ∧ k < n

/-- The loop over the fields finds no error. -/
def Acceptable (n : Nat) : Seen → List FieldProto → Prop
  | _, [] => True
  | s, f :: fs => fieldRejected s f = false ∧ MemberOk n f ∧ Acceptable n (s.with f) fs

theorem acceptable_iff (n : Nat) : ∀ (fs done : List FieldProto),
    Acceptable n (seenAfter done {}) fs ↔
      (∀ f ∈ fs, FieldOk f ∧ MemberOk n f) ∧ fs.Pairwise Compat ∧
        ∀ f ∈ fs, ∀ g ∈ done, Compat g f
  | [], done => by simp [Acceptable]
  | f :: fs, done => by
    rw [Acceptable, fieldRejected_iff]
    have e : (seenAfter done {}).with f = seenAfter (done ++ [f]) {} := by
      simp [seenAfter]
    rw [e, acceptable_iff n fs (done ++ [f]), List.pairwise_cons]
    constructor
    · rintro ⟨⟨h1, h2⟩, h3, h4, h5, h6⟩
      refine ⟨?_, ⟨fun g hg => h6 g hg f (by simp), h5⟩, ?_⟩
      · intro g hg
        rcases List.mem_cons.1 hg with rfl | hg
        · exact ⟨h1, h3⟩
        · exact h4 g hg
      · intro g hg x hx
        rcases List.mem_cons.1 hg with rfl | hg
        · exact h2 x hx
        · exact h6 g hg x (by simp [hx])
    · rintro ⟨h1, ⟨h2, h3⟩, h4⟩
      refine ⟨⟨(h1 f (by simp)).1, h4 f (by simp)⟩, (h1 f (by simp)).2,
        fun g hg => h1 g (by simp [hg]), h3, ?_⟩
      intro g hg x hx
      rcases List.mem_append.1 hx with hx | hx
      · exact h4 g (by simp [hg]) x hx
      · rw [List.mem_singleton.1 hx]; exact h2 g hg

theorem pairwise_of {α : Type} {R : α → α → Prop} : ∀ {l : List α},
    l.Pairwise R → (∀ a b, R a b → R b a) → ∀ a ∈ l, ∀ b ∈ l, a = b ∨ R a b
  | [], _, _, a, ha, _, _ => by simp at ha
  | x :: l, h, hs, a, ha, b, hb => by
    rw [List.pairwise_cons] at h
    rcases List.mem_cons.1 ha with ea | ha'
    · rcases List.mem_cons.1 hb with eb | hb'
      · exact .inl (ea.trans eb.symm)
      · exact .inr (ea ▸ h.1 b hb')
    · rcases List.mem_cons.1 hb with eb | hb'
      · exact .inr (hs _ _ (eb ▸ h.1 a ha'))
      · exact pairwise_of h.2 hs a ha' b hb'

theorem pairwise_compat_iff (fs : List FieldProto) : fs.Pairwise Compat ↔
    (fs.map (·.number)).Nodup ∧ (fs.map (·.name)).Nodup ∧
    ∀ f ∈ fs, ∀ g ∈ fs, f.number ≠ g.number → CustomJson f →
      f.jsonName ≠ g.name ∧ f.jsonName ≠ g.jsonName := by
  constructor
  · intro h
    refine ⟨?_, ?_, ?_⟩
    · rw [List.nodup_iff_pairwise_ne, List.pairwise_map]
      exact h.imp fun h => h.number
    · rw [List.nodup_iff_pairwise_ne, List.pairwise_map]
      exact h.imp fun h => h.name
    · intro f hf g hg hn hc
      rcases pairwise_of h (fun _ _ h => h.symm) f hf g hg with rfl | hr
      · exact absurd rfl hn
      · exact hr.left hc
  · rintro ⟨h1, h2, h3⟩
    rw [List.nodup_iff_pairwise_ne, List.pairwise_map] at h1 h2
    induction fs with
    | nil => exact .nil
    | cons f fs ih =>
      rw [List.pairwise_cons] at h1 h2 ⊢
      refine ⟨fun g hg => ⟨h1.1 g hg, h2.1 g hg, ?_, ?_⟩,
        ih h1.2 h2.2 fun a ha b hb => h3 a (by simp [ha]) b (by simp [hb])⟩
      · exact h3 f (by simp) g (by simp [hg]) (h1.1 g hg)
      · exact h3 g (by simp [hg]) f (by simp) (h1.1 g hg).symm

/-- The conditions on the fields of a message, except that oneofs are not empty. -/
theorem fieldsOk_iff (m : MsgProto) : FieldsOk m ↔
    Acceptable m.oneofs.length {} m.fields ∧
      ∀ k : Nat, k < m.oneofs.length → ∃ f ∈ m.fields, f.oneofIndex = some (k : Int) := by
  have := acceptable_iff m.oneofs.length m.fields []
  rw [show seenAfter [] {} = {} from rfl] at this
  rw [this, pairwise_compat_iff]
  constructor
  · intro h
    exact ⟨⟨fun f hf => ⟨h.each f hf, h.members f hf⟩, ⟨h.numbers, h.names, h.json⟩, by simp⟩,
      h.oneofs⟩
  · rintro ⟨⟨h1, ⟨h2, h3, h4⟩, _⟩, h5⟩
    exact ⟨fun f hf => (h1 f hf).1, h2, h3, h4, fun f hf => (h1 f hf).2, h5⟩

/-! ## The loop over the fields -/

/-- The oneof a field joins, if any, in a message with the oneofs `os`. -/
def slotOf (os : List Nat) (f : FieldProto) : Option Nat :=
  f.oneofIndex.bind fun k => (oneofSlot k).bind (os[·]?)

/-- The members of the oneof `o` among the fields `fs`, which have indices from `j`. -/
def membersOf (os : List Nat) : Nat → List FieldProto → Nat → List Nat
  | _, [], _ => []
  | j, f :: fs, o => (if slotOf os f = some o then [j] else []) ++ membersOf os (j + 1) fs o

/-- The oneofs after fields have joinedOneofs them. -/
def joinedOneofs (os : List Nat) (j : Nat) (fs : List FieldProto) (l : List OneofDesc) :
    List OneofDesc :=
  l.mapIdx fun o d => { d with fields := d.fields ++ membersOf os j fs o }

theorem joinedOneofs_get (os : List Nat) (j : Nat) (fs : List FieldProto) (l : List OneofDesc) (o : Nat) :
    (joinedOneofs os j fs l)[o]? = l[o]?.map fun d => { d with fields := d.fields ++ membersOf os j fs o } := by
  simp [joinedOneofs, List.getElem?_mapIdx]

theorem joinedOneofs_nil (os : List Nat) (j : Nat) (l : List OneofDesc) : joinedOneofs os j [] l = l := by
  apply List.ext_getElem?
  intro o
  rw [joinedOneofs_get]
  cases l[o]? <;> simp [membersOf]

theorem joinOneof_sat (p : Pool) (os : List Nat) (f : FieldProto) (j : Nat) :
    (joinOneof p os f j).Sat
      (fun p' => p' = { p with oneofs := joinedOneofs os j [f] p.oneofs } ∧ MemberOk os.length f)
      (¬ MemberOk os.length f) := by
  unfold joinOneof
  cases hx : f.oneofIndex with
  | none =>
    refine ⟨?_, by simp [MemberOk, hx]⟩
    have : joinedOneofs os j [f] p.oneofs = p.oneofs := by
      apply List.ext_getElem?
      intro o
      rw [joinedOneofs_get]
      cases p.oneofs[o]? <;> simp [membersOf, slotOf, hx]
    rw [this]
  | some index =>
    simp only
    split
    · rename_i h
      exact ⟨rfl, fun hm => (hm index hx).1 (by simpa using h)⟩
    · rename_i hlab
      cases hs : (oneofSlot index).bind (os[·]?) with
      | none =>
        refine ⟨rfl, fun hm => ?_⟩
        have := hm index hx
        unfold oneofSlot at hs
        rw [if_neg (by omega)] at hs
        simp only [Option.bind_some, List.getElem?_eq_none_iff] at hs
        omega
      | some o =>
        refine ⟨?_, ?_⟩
        · have : joinedOneofs os j [f] p.oneofs =
              p.oneofs.modify o (fun d => { d with fields := d.fields ++ [j] }) := by
            apply List.ext_getElem?
            intro x
            rw [joinedOneofs_get, List.getElem?_modify]
            have hsl : slotOf os f = some o := by rw [slotOf, hx]; exact hs
            cases p.oneofs[x]? with
            | none => rfl
            | some d =>
              simp only [Option.map_some, membersOf, hsl, Option.some.injEq, List.append_nil,
                Option.map_eq_map]
              by_cases hox : o = x
              · rw [if_pos hox, if_pos hox]
              · rw [if_neg hox, if_neg hox]; simp
          rw [this]
        · intro k hk
          rw [hx] at hk
          obtain rfl := Option.some.inj hk
          refine ⟨by simpa using hlab, ?_⟩
          unfold oneofSlot at hs
          split at hs
          · simp at hs
          · simp only [Option.bind_some] at hs
            have := (List.getElem?_eq_some_iff.1 hs).1
            omega

/-- The descriptor of a field of the message at index `i`. -/
def newField (i : Nat) (mapEntry : Bool) (F : Features) (f : FieldProto) : FieldDesc :=
  if mapEntry then { makeField f (some i) F with
      bits := { (makeField f (some i) F).bits with presence := true } }
  else makeField f (some i) F

theorem newField_proto (i : Nat) (me : Bool) (F : Features) (f : FieldProto) :
    (newField i me F f).proto = f := by
  unfold newField; split <;> rfl

theorem joinedOneofs_cons (os : List Nat) (j : Nat) (f : FieldProto) (fs : List FieldProto)
    (l : List OneofDesc) : joinedOneofs os (j + 1) fs (joinedOneofs os j [f] l) = joinedOneofs os j (f :: fs) l := by
  apply List.ext_getElem?
  intro o
  rw [joinedOneofs_get, joinedOneofs_get, joinedOneofs_get]
  cases l[o]? <;> simp [membersOf]

theorem fieldLoop_sat (i : Nat) (me : Bool) (F : Features) (os : List Nat) :
    ∀ (fs : List FieldProto) (s : Seen) (p : Pool) (ids : List Nat),
    p.fields.length + fs.length ≤ p.room.fields →
    (fieldLoop i me F os fs s p ids).Sat
      (fun r => r = ({ p with
          fields := p.fields ++ fs.map (newField i me F)
          oneofs := joinedOneofs os p.fields.length fs p.oneofs },
          ids ++ List.range' p.fields.length fs.length) ∧ Acceptable os.length s fs)
      (¬ Acceptable os.length s fs)
  | [], s, p, ids, _ => by
    refine ⟨?_, trivial⟩
    simp [joinedOneofs_nil]
  | f :: fs, s, p, ids, hr => by
    unfold fieldLoop
    split
    · rename_i h
      refine ⟨rfl, fun ha => ?_⟩
      have := ha.1
      rw [h] at this; cases this
    · rename_i hrej
      simp only [List.length_cons] at hr
      have hnf : (if me then { makeField f (some i) F with
          bits := { (makeField f (some i) F).bits with presence := true } }
          else makeField f (some i) F) = newField i me F f := rfl
      simp only [hnf]
      rw [push, if_pos (by omega)]
      show Res.Sat ((joinOneof { p with fields := p.fields ++ [newField i me F f] } os f
        p.fields.length).bind _) _ _
      refine (joinOneof_sat _ os f p.fields.length).bind (fun h ha => h ha.2.1) ?_
      rintro _ ⟨rfl, hm⟩
      refine (fieldLoop_sat i me F os fs _ _ _ ?_).mono ?_ (fun h ha => h ha.2.2)
      · simp; omega
      · rintro _ ⟨rfl, ha⟩
        refine ⟨?_, by simpa using hrej, hm, ha⟩
        simp [List.range'_succ, joinedOneofs_cons]

theorem extensionLoop_sat (parent : Option Nat) (F : Features) :
    ∀ (fs : List FieldProto) (p : Pool) (ids : List Nat),
    p.fields.length + fs.length ≤ p.room.fields →
    (extensionLoop parent F fs p ids).Sat
      (fun r => r = ({ p with fields := p.fields ++ fs.map (makeField · parent F) },
          ids ++ List.range' p.fields.length fs.length) ∧ ∀ f ∈ fs, FieldOk f)
      (¬ ∀ f ∈ fs, FieldOk f)
  | [], p, ids, _ => by
    refine ⟨?_, by simp⟩
    simp
  | f :: fs, p, ids, hr => by
    unfold extensionLoop
    split
    · rename_i h
      refine ⟨rfl, fun ha => ?_⟩
      have := (fieldOk_iff f).2 (ha f (by simp))
      simp [this.1, this.2] at h
    · rename_i h
      have hok : FieldOk f := by
        rw [← fieldOk_iff]
        simpa using h
      simp only [List.length_cons] at hr
      rw [push, if_pos (by omega)]
      show (extensionLoop parent F fs _ _).Sat _ _
      refine (extensionLoop_sat parent F fs _ _ ?_).mono ?_ (fun h ha => h fun g hg => ha g (by simp [hg]))
      · simp; omega
      · rintro _ ⟨rfl, ha⟩
        refine ⟨by simp [List.range'_succ], ?_⟩
        intro g hg
        rcases List.mem_cons.1 hg with rfl | hg
        · exact hok
        · exact ha g hg

/-! ## Members of oneofs -/

theorem slotOf_iff {os : List Nat} (hd : os.Nodup) {k o : Nat} (hk : os[k]? = some o)
    (f : FieldProto) : slotOf os f = some o ↔ f.oneofIndex = some (k : Int) := by
  unfold slotOf
  cases hx : f.oneofIndex with
  | none => simp
  | some n =>
    simp only [Option.bind_some, Option.some.injEq]
    unfold oneofSlot
    split
    · rename_i h
      simp only [Option.bind_none, reduceCtorEq, false_iff]
      omega
    · rename_i h
      simp only [Option.bind_some]
      constructor
      · intro e
        have h1 := (List.getElem?_eq_some_iff.1 hk).1
        have h2 := (List.getElem?_eq_some_iff.1 e).1
        have := (List.getElem?_inj h2 hd).1 (e.trans hk.symm)
        omega
      · intro e
        rw [e, Int.toNat_natCast]
        exact hk

theorem membersOf_nil_iff (os : List Nat) (o : Nat) : ∀ (fs : List FieldProto) (j : Nat),
    membersOf os j fs o = [] ↔ ¬ ∃ f ∈ fs, slotOf os f = some o
  | [], j => by simp [membersOf]
  | f :: fs, j => by
    rw [membersOf, List.append_eq_nil_iff, membersOf_nil_iff os o fs (j + 1),
      exists_mem_cons, not_or]
    apply and_congr_left'
    split <;> simp_all

theorem membersOf_filter {os : List Nat} (hd : os.Nodup) {k o : Nat} (hk : os[k]? = some o)
    (look : Nat → Option Int) : ∀ (fs : List FieldProto) (j : Nat),
    (∀ (t : Nat) (f : FieldProto), fs[t]? = some f → look (j + t) = f.oneofIndex) →
    membersOf os j fs o = (List.range' j fs.length).filter (fun x => look x = some (k : Int))
  | [], j, _ => by simp [membersOf]
  | f :: fs, j, h => by
    rw [membersOf, List.length_cons, List.range'_succ, List.filter_cons,
      membersOf_filter hd hk look fs (j + 1) (fun t g hg => by
        rw [← h (t + 1) g (by simpa using hg)]; congr 1; omega)]
    have := h 0 f rfl
    rw [Nat.add_zero] at this
    rw [this]
    by_cases hs : f.oneofIndex = some (k : Int)
    · rw [if_pos ((slotOf_iff hd hk f).2 hs), if_pos (by simpa using hs)]; rfl
    · rw [if_neg (fun h => hs ((slotOf_iff hd hk f).1 h)), if_neg (by simpa using hs)]; rfl

end HppProto
