import Verif.Proofs.GenJsonWrite
import Verif.Proofs.GenJsonStyle
import Verif.Proofs.GenJsonSafe
import Verif.Props.Json

/-! # Generated classes for the examples about JSON -/

namespace HppProto.Props
open HppProto.Json

/-- The field of the same name and type in a generated class. -/
def genName (f : JField) : GName := ⟨f.name, f.jsonName, f.ty⟩

/-- `Person` (`jsonPerson`) as a generated class. -/
def genPerson : GDesc :=
  ⟨[.field (genName jsonAge) .optional, .field (genName jsonTags) (.repeated false), .field (genName jsonColorField) .optional,
    .field (genName jsonMarks) (.map true), .field (genName jsonExtra) .optional, .oneof [genName jsonNick, genName jsonAnon],
    .field (genName jsonBorn) .optional, .field (genName jsonNums) (.repeated true), .field (genName jsonLimit) .optional], .none⟩

def rankBest : GName := ⟨b!"best", b!"best", .enum jsonColor⟩
def rankNote : GName := ⟨b!"note", b!"note", .string⟩
def rankWho : GName := ⟨b!"who_is", b!"whoIs", .msg 0⟩
def rankTotal : GName := ⟨b!"total", b!"total", .int false true⟩

/-- `message Rank { required Color best = 1; string note = 2; required Person who_is = 3; required uint64 total = 4; }`, where
`note` has no presence. -/
def genRank : GDesc :=
  ⟨[.field rankBest (.always (.num 0)), .field rankNote (.implicit (.bytes [])), .field rankWho (.always (.msg genPerson.default)),
    .field rankTotal (.always (.num 0))], .none⟩

/-- `Person`, the entry of its map, well-known types, and `Rank`. -/
def genTypes : GTypes
  | 0 => genPerson
  | 1 => ⟨[.field (genName jsonKey) (.always (.bytes [])), .field (genName jsonMark) (.always (.num 0))], .none⟩
  | 2 => ⟨[.field (genName jsonSeconds) (.implicit (.num 0)), .field (genName jsonNanos) (.implicit (.num 0))], .timestamp⟩
  | 3 => ⟨[.oneof [genName jsonNull, genName jsonNumber, genName jsonString, genName jsonBool, genName jsonStruct, genName jsonListValue]],
      .value⟩
  | 4 => ⟨[.field (genName jsonFields) (.map true)], .struct⟩
  | 5 => ⟨[.field (genName jsonKey) (.always (.bytes [])), .field (genName jsonFieldValue) .optional], .none⟩
  | 6 => ⟨[.field (genName jsonValues) (.repeated false)], .listValue⟩
  | 7 => ⟨[.field (genName jsonWrapped) (.implicit (.num 0))], .wrapper⟩
  | 8 => ⟨[.field (genName jsonPaths) (.repeated false)], .fieldMask⟩
  | 9 => ⟨[.field (genName jsonSeconds) (.implicit (.num 0)), .field (genName jsonNanos) (.implicit (.num 0))], .duration⟩
  | 10 => genRank
  | _ => ⟨[], .none⟩

/-- Names and enums. -/
def nameFine (f : GName) : Bool :=
  (f.name.all fun c => decide (0x20 ≤ c.toNat) && c != 0x22 && c != 0x5c) &&
  (f.jsonName.all fun c => decide (0x20 ≤ c.toNat) && c != 0x22 && c != 0x5c) &&
  (match f.ty with
    | .enum E => decide ((E.values.map (·.1)).Nodup) &&
        E.values.all fun p => p.1 != [] && p.1.all fun c => decide (0x20 ≤ c.toNat) && c != 0x22 && c != 0x5c
    | _ => true)

def gnamesApart (f g : GName) : Bool :=
  f.jsonName != g.jsonName && f.jsonName != g.name && f.name != g.jsonName && f.name != g.name

/-- Map fields are of a type with a key and a value; fields without presence are not messages. -/
def slotFine (T : GTypes) : GSlot → Bool
  | .field f (.map _) =>
    match f.ty with
    | .msg id =>
      match (T id).slots with
      | [.field k _, .field _ _] => k.ty.isKey
      | _ => false
    | _ => false
  | .field f (.implicit _) =>
    match f.ty with
    | .msg _ => false
    | _ => true
  | _ => true

/-- What can be checked of a class by evaluation. -/
structure GChecked (T : GTypes) (D : GDesc) : Prop where
  fine : ∀ f ∈ D.names, nameFine f = true
  apart : D.names.Pairwise fun f g => gnamesApart f g = true
  slots : ∀ sl ∈ D.slots, slotFine T sl = true

theorem gchecked {T : GTypes} {D : GDesc} (h : GChecked T D) :
    (∀ f ∈ D.names, Plain f.name ∧ Plain f.jsonName) ∧
    (D.names.Pairwise fun f g => f.jsonName ≠ g.jsonName ∧ f.jsonName ≠ g.name ∧ f.name ≠ g.jsonName ∧ f.name ≠ g.name) ∧
    (∀ f ∈ D.names, ∀ E, f.ty = .enum E → (E.values.map (·.1)).Nodup ∧ ∀ p ∈ E.values, p.1 ≠ [] ∧ Plain p.1) ∧
    (∀ f u, .field f (.map u) ∈ D.slots → ∃ id k kc x xc, f.ty = .msg id ∧
      (T id).slots = [.field k kc, .field x xc] ∧ k.ty.isKey = true) ∧
    (∀ f d, .field f (.implicit d) ∈ D.slots → ∀ id, f.ty ≠ .msg id) := by
  have hf : ∀ f ∈ D.names, _ := fun f hf => by
    have := h.fine f hf
    unfold nameFine at this
    simp only [Bool.and_eq_true] at this
    exact this
  refine ⟨fun f hm => ⟨plain_check (hf f hm).1.1, plain_check (hf f hm).1.2⟩, ?_, ?_, ?_, ?_⟩
  · refine h.apart.imp ?_
    intro f g e
    simpa [gnamesApart, and_assoc] using e
  · intro f hm E e
    have := (hf f hm).2
    rw [e] at this
    simp only [Bool.and_eq_true, decide_eq_true_eq, List.all_eq_true, bne_iff_ne] at this
    exact ⟨this.1, fun p hp => ⟨(this.2 p hp).1, plain_check (by simpa using (this.2 p hp).2)⟩⟩
  · intro f u hm
    have := h.slots _ hm
    simp only [slotFine] at this
    split at this
    · rename_i id e
      split at this
      · rename_i k kc x xc e'
        exact ⟨id, k, kc, x, xc, e, e', this⟩
      · cases this
    · cases this
  · intro f d hm id e
    have := h.slots _ hm
    simp only [slotFine, e] at this
    cases this

macro "gchecks" : tactic => `(tactic| exact ⟨by decide +kernel, by decide +kernel, by decide +kernel⟩)

theorem genTypes_checked : ∀ id, GChecked genTypes (genTypes id)
  | 0 => by gchecks
  | 1 => by gchecks
  | 2 => by gchecks
  | 3 => by gchecks
  | 4 => by gchecks
  | 5 => by gchecks
  | 6 => by gchecks
  | 7 => by gchecks
  | 8 => by gchecks
  | 9 => by gchecks
  | 10 => by gchecks
  | _ + 11 => ⟨(by intro f hf; cases hf), .nil, by intro sl h; cases h⟩

theorem genTypes_ok : ∀ id, (genTypes id).Ok genTypes := by
  intro id
  have p := gchecked (genTypes_checked id)
  refine ⟨p.1, p.2.1, p.2.2.1, p.2.2.2.1, p.2.2.2.2, ?_, ?_, ?_, ?_, ?_, ?_, ?_⟩
  · intro f d hf t e
    match id with
    | 10 =>
      simp only [genTypes, genRank, List.mem_cons, List.not_mem_nil, or_false, GSlot.field.injEq, Card.always.injEq, reduceCtorEq,
        and_false, false_or] at hf
      rcases hf with ⟨rfl, rfl⟩ | ⟨rfl, rfl⟩ | ⟨rfl, rfl⟩ <;> cases e
      rfl
    | 1 | 5 =>
      simp only [genTypes, List.mem_cons, List.not_mem_nil, or_false, GSlot.field.injEq, Card.always.injEq, reduceCtorEq,
        and_false] at hf
      rcases hf with ⟨rfl, rfl⟩ | ⟨rfl, rfl⟩ <;> cases e
    | 0 => simp [genTypes, genPerson] at hf
    | 2 | 3 | 4 | 6 | 7 | 8 | 9 | _ + 11 => simp [genTypes] at hf
  · match id with
    | 2 | 9 => exact fun _ => ⟨_, _, _, _, rfl, rfl, rfl⟩
    | 0 | 1 | 3 | 4 | 5 | 6 | 7 | 8 | 10 | _ + 11 => intro h; rcases h with h | h <;> cases h
  · match id with
    | 8 => exact fun _ => ⟨_, _, rfl, rfl⟩
    | 0 | 1 | 2 | 3 | 4 | 5 | 6 | 7 | 9 | 10 | _ + 11 => intro h; cases h
  · match id with
    | 3 => exact fun _ => ⟨_, _, _, _, _, _, _, _, _, _, _, _, _, rfl, rfl, rfl, rfl, rfl, rfl, rfl, rfl, rfl, rfl⟩
    | 0 | 1 | 2 | 4 | 5 | 6 | 7 | 8 | 9 | 10 | _ + 11 => intro h; cases h
  · match id with
    | 4 => exact fun _ => ⟨_, _, _, _, _, _, _, _, rfl, rfl, rfl, rfl, rfl⟩
    | 0 | 1 | 2 | 3 | 5 | 6 | 7 | 8 | 9 | 10 | _ + 11 => intro h; cases h
  · match id with
    | 6 => exact fun _ => ⟨_, _, rfl⟩
    | 0 | 1 | 2 | 3 | 4 | 5 | 7 | 8 | 9 | 10 | _ + 11 => intro h; cases h
  · match id with
    | 7 => exact fun _ => ⟨_, _, rfl⟩
    | 0 | 1 | 2 | 3 | 4 | 5 | 6 | 8 | 9 | 10 | _ + 11 => intro h; cases h

theorem genTypes_narrow : ∀ id, (genTypes id).NarrowOneofs := by
  intro id alts ha f hf s e
  match id with
  | 0 =>
    simp only [genTypes, genPerson, List.mem_cons, List.not_mem_nil, or_false, GSlot.oneof.injEq, reduceCtorEq, false_or] at ha
    subst ha
    simp only [List.mem_cons, List.not_mem_nil, or_false] at hf
    rcases hf with rfl | rfl <;> cases e
  | 3 =>
    simp only [genTypes, List.mem_cons, List.not_mem_nil, or_false, GSlot.oneof.injEq] at ha
    subst ha
    simp only [List.mem_cons, List.not_mem_nil, or_false] at hf
    rcases hf with rfl | rfl | rfl | rfl | rfl | rfl <;> cases e
  | 10 => simp [genTypes, genRank] at ha
  | 1 | 2 | 4 | 5 | 6 | 7 | 8 | 9 | _ + 11 => simp [genTypes] at ha

theorem genTypes_any : ∀ id, (genTypes id).wk ≠ .any := by
  intro id
  match id with
  | 0 | 1 | 2 | 3 | 4 | 5 | 6 | 7 | 8 | 9 | 10 | _ + 11 => intro h; cases h

/-- `genTypes` with another class as type 0. -/
def withClass (D : GDesc) : GTypes
  | 0 => D
  | id => genTypes id

theorem withClass_succ (D : GDesc) {id : Nat} (h : id ≠ 0) : withClass D id = genTypes id := by
  cases id with
  | zero => exact absurd rfl h
  | succ n => rfl

end HppProto.Props
