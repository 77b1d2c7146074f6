import Verif.Proofs.JsonStyle
import Verif.Proofs.JsonSafe
import Verif.Proofs.JsonRef

/-! # Message types for the examples about JSON -/

namespace HppProto.Props
open HppProto.Json

/-- A singular field outside oneofs, with a slot of its own. -/
def jsonField (number : Nat) (kind : Kind) (ty : JType) (name json : List Byte) (slot : Nat) (optional : Bool := false) : JField :=
  ⟨⟨BitVec.ofNat 32 number, kind, false, false, none, false, optional, .num 0, ⟨slot, 1, 0, slot⟩⟩, name, json, ty⟩

/-- A repeated field. -/
def jsonList (number : Nat) (kind : Kind) (ty : JType) (name json : List Byte) (slot : Nat) : JField :=
  ⟨⟨BitVec.ofNat 32 number, kind, true, false, none, false, false, .num 0, ⟨slot, 0, 0, slot⟩⟩, name, json, ty⟩

/-- A member of the oneof 0. -/
def jsonMember (number : Nat) (kind : Kind) (ty : JType) (name json : List Byte) (slot ordinal index : Nat) : JField :=
  ⟨⟨BitVec.ofNat 32 number, kind, false, false, some 0, false, false, .num 0,
    ⟨slot, ordinal, 2 ^ 32 - 1, (index : Int) - ordinal⟩⟩, name, json, ty⟩

/-- `enum Color { RED = 0; GREEN = 3; VERT = 3; DARK = -1; }` -/
def jsonColor : EnumInfo := ⟨[(b!"RED", 0), (b!"GREEN", 3), (b!"VERT", 3), (b!"DARK", -1)], false⟩

def jsonAge := jsonField 1 (.scalar (.varint .i32)) (.int true false) b!"age" b!"age" 0 true
def jsonTags := jsonList 2 (.scalar (.str true)) .string b!"tag_list" b!"tagList" 1
def jsonColorField := jsonField 3 (.scalar (.enum none)) (.enum jsonColor) b!"color" b!"color" 2 true
def jsonMarks := jsonList 4 (.msg 1) (.msg 1) b!"marks" b!"marks" 3
def jsonExtra := jsonField 5 (.msg 3) (.msg 3) b!"extra" b!"extra" 4 true
def jsonNick := jsonMember 6 (.scalar (.str true)) .string b!"nick" b!"nick" 5 2 5
def jsonAnon := jsonMember 7 (.scalar .bool) .bool b!"anon" b!"anon" 5 3 6
def jsonBorn := jsonField 8 (.msg 2) (.msg 2) b!"born_at" b!"bornAt" 6 true |> fun f => { f with dyn.layout.bias := 7 }
def jsonNums := jsonList 9 (.scalar (.varint .i64)) (.int true true) b!"nums" b!"nums" 7 |> fun f => { f with dyn.layout.bias := 8 }
def jsonLimit := jsonField 10 (.msg 7) (.msg 7) b!"limit" b!"limit" 8 true |> fun f => { f with dyn.layout.bias := 9 }

/-- ```
message Person { optional int32 age = 1; repeated string tag_list = 2; optional Color color = 3; map<string, int64> marks = 4;
  google.protobuf.Value extra = 5; oneof who { string nick = 6; bool anon = 7; } google.protobuf.Timestamp born_at = 8;
  repeated int64 nums = 9; google.protobuf.Int32Value limit = 10; }
``` -/
def jsonPerson : JDesc :=
  ⟨[jsonAge, jsonTags, jsonColorField, jsonMarks, jsonExtra, jsonNick, jsonAnon, jsonBorn, jsonNums, jsonLimit], 9, false, .none⟩

def jsonKey := jsonField 1 (.scalar (.str true)) .string b!"key" b!"key" 0
def jsonMark := jsonField 2 (.scalar (.varint .i64)) (.int true true) b!"value" b!"value" 1
def jsonSeconds := jsonField 1 (.scalar (.varint .i64)) (.int true true) b!"seconds" b!"seconds" 0
def jsonNanos := jsonField 2 (.scalar (.varint .i32)) (.int true false) b!"nanos" b!"nanos" 1

def jsonNull := jsonMember 1 (.scalar (.enum none)) (.enum ⟨[(b!"NULL_VALUE", 0)], true⟩) b!"null_value" b!"nullValue" 0 2 0
def jsonNumber := jsonMember 2 (.scalar (.fixed64 true)) (.float true) b!"number_value" b!"numberValue" 0 3 1
def jsonString := jsonMember 3 (.scalar (.str true)) .string b!"string_value" b!"stringValue" 0 4 2
def jsonBool := jsonMember 4 (.scalar .bool) .bool b!"bool_value" b!"boolValue" 0 5 3
def jsonStruct := jsonMember 5 (.msg 4) (.msg 4) b!"struct_value" b!"structValue" 0 6 4
def jsonListValue := jsonMember 6 (.msg 6) (.msg 6) b!"list_value" b!"listValue" 0 7 5

def jsonFields := jsonList 1 (.msg 5) (.msg 5) b!"fields" b!"fields" 0
def jsonFieldValue := jsonField 2 (.msg 3) (.msg 3) b!"value" b!"value" 1 true
def jsonValues := jsonList 1 (.msg 3) (.msg 3) b!"values" b!"values" 0
def jsonWrapped := jsonField 1 (.scalar (.varint .i32)) (.int true false) b!"value" b!"value" 0
def jsonPaths := jsonList 1 (.scalar (.str true)) .string b!"paths" b!"paths" 0

/-- `Person`, the entry of its map, and well-known types. -/
def jsonTypes : JTypes
  | 0 => jsonPerson
  | 1 => ⟨[jsonKey, jsonMark], 2, true, .none⟩
  | 2 => ⟨[jsonSeconds, jsonNanos], 2, false, .timestamp⟩
  | 3 => ⟨[jsonNull, jsonNumber, jsonString, jsonBool, jsonStruct, jsonListValue], 1, false, .value⟩
  | 4 => ⟨[jsonFields], 1, false, .struct⟩
  | 5 => ⟨[jsonKey, jsonFieldValue], 2, true, .none⟩
  | 6 => ⟨[jsonValues], 1, false, .listValue⟩
  | 7 => ⟨[jsonWrapped], 1, false, .wrapper⟩
  | 8 => ⟨[jsonPaths], 1, false, .fieldMask⟩
  | 9 => ⟨[jsonSeconds, jsonNanos], 2, false, .duration⟩
  | _ => ⟨[], 0, false, .none⟩

/-- No two fields have a name in common. -/
def namesApart (f g : JField) : Bool := f.jsonName != g.jsonName && f.jsonName != g.name && f.name != g.jsonName && f.name != g.name

theorem keys_apart {fs : List JField} (h : fs.Pairwise fun f g => namesApart f g = true) : ∀ f ∈ fs, ∀ g ∈ fs,
    (f.jsonName = g.jsonName ∨ f.jsonName = g.name ∨ f.name = g.name) → f = g := by
  induction h with
  | nil => intro f hf; cases hf
  | @cons a fs ha _ ih =>
    intro f hf g hg e
    rcases List.mem_cons.1 hf with rfl | hf' <;> rcases List.mem_cons.1 hg with rfl | hg'
    · rfl
    · have := ha g hg'
      simp only [namesApart, Bool.and_eq_true, bne_iff_ne] at this
      rcases e with e | e | e
      · exact absurd e this.1.1.1
      · exact absurd e this.1.1.2
      · exact absurd e this.2
    · have := ha f hf'
      simp only [namesApart, Bool.and_eq_true, bne_iff_ne] at this
      rcases e with e | e | e
      · exact absurd e.symm this.1.1.1
      · exact absurd e.symm this.1.2
      · exact absurd e.symm this.2
    · exact ih f hf' g hg' e

/-- Field names, enum names and storage. -/
def fieldFine (f : JField) : Bool :=
  (match f.ty with
    | .msg id => f.dyn.kind.msgType == some id
    | .string | .bytes => f.dyn.kind.isStr
    | .enum E => f.dyn.kind.isNum && decide ((E.values.map (·.1)).Nodup) &&
        E.values.all fun p => p.1 != [] && p.1.all fun c => decide (0x20 ≤ c.toNat) && c != 0x22 && c != 0x5c
    | _ => f.dyn.kind.isNum) &&
  (f.name.all fun c => decide (0x20 ≤ c.toNat) && c != 0x22 && c != 0x5c) &&
  (f.jsonName.all fun c => decide (0x20 ≤ c.toNat) && c != 0x22 && c != 0x5c) &&
  (f.dyn.oneof == none || (f.dyn.oneof == some 0 && !f.dyn.repeated)) &&
  (f.dyn.explicit || (f.dyn.dflt.bits == 0 && f.dyn.dflt.str == []))

theorem plain_check {t : List Byte} (h : (t.all fun c => decide (0x20 ≤ c.toNat) && c != 0x22 && c != 0x5c) = true) : Plain t := by
  intro c hc
  have := List.all_eq_true.1 h c hc
  simpa [and_assoc] using this

structure Checked (D : JDesc) : Prop where
  fine : ∀ f ∈ D.fields, fieldFine f = true
  laid : layoutFields 1 (D.fields.map fun f => f.dyn.slotField) = some (D.fields.map (fun f => f.dyn.layout), D.slots)
  distinct : (D.fields.map fun f => f.dyn.number).Nodup
  apart : D.fields.Pairwise fun f g => namesApart f g = true

theorem checked_plain {D : JDesc} (h : Checked D) : D.dyn.Ok ∧ (∀ f ∈ D.fields, f.tied) ∧
    (∀ f ∈ D.fields, Plain f.name ∧ Plain f.jsonName) ∧
    (∀ f ∈ D.fields, ∀ E, f.ty = .enum E → (E.values.map (·.1)).Nodup ∧ ∀ p ∈ E.values, p.1 ≠ [] ∧ Plain p.1) := by
  have hf : ∀ f ∈ D.fields, _ := fun f hf => by
    have := h.fine f hf
    unfold fieldFine at this
    simp only [Bool.and_eq_true] at this
    exact this
  have hone : ∀ f ∈ D.fields, ∀ o, f.dyn.oneof = some o → o = 0 ∧ f.dyn.repeated = false := by
    intro f hm o e
    have := (hf f hm).1.2
    rw [e] at this
    simpa using this
  refine ⟨⟨⟨1, ?_, ?_⟩, ?_, ?_⟩, ?_, ?_, ?_⟩
  · intro g hg o e
    obtain ⟨f, hm, rfl⟩ := List.mem_map.1 hg
    have := hone f hm o e
    omega
  · have := h.laid
    simpa [JDesc.dyn, List.map_map, Function.comp_def] using this
  · intro g hg hr
    obtain ⟨f, hm, rfl⟩ := List.mem_map.1 hg
    cases e : f.dyn.oneof with
    | none => rfl
    | some o => rw [(hone f hm o e).2] at hr; cases hr
  · intro g hg he
    obtain ⟨f, hm, rfl⟩ := List.mem_map.1 hg
    have := (hf f hm).2
    rw [he] at this
    simpa using this
  · intro f hm
    have := (hf f hm).1.1.1.1
    unfold JField.tied
    split at this <;> simp_all
  · exact fun f hm => ⟨plain_check (hf f hm).1.1.1.2, plain_check (hf f hm).1.1.2⟩
  · intro f hm E e
    have := (hf f hm).1.1.1.1
    rw [e] at this
    simp only [Bool.and_eq_true, decide_eq_true_eq, List.all_eq_true, bne_iff_ne] at this
    exact ⟨this.1.2, fun p hp => ⟨(this.2 p hp).1, plain_check (by simpa using (this.2 p hp).2)⟩⟩

macro "checked" : tactic => `(tactic| exact ⟨by decide +kernel, by decide +kernel, by decide +kernel, by decide +kernel⟩)

theorem jsonTypes_checked : ∀ id, Checked (jsonTypes id)
  | 0 => by checked
  | 1 => by checked
  | 2 => by checked
  | 3 => by checked
  | 4 => by checked
  | 5 => by checked
  | 6 => by checked
  | 7 => by checked
  | 8 => by checked
  | 9 => by checked
  | _ + 10 => ⟨(by intro f hf; cases hf), rfl, .nil, .nil⟩

/-- Map fields are repeated. -/
def mapsRepeated (T : JTypes) (f : JField) : Bool :=
  match f.ty with
  | .msg id => !(T id).entry || f.dyn.repeated
  | _ => true

theorem maps_check {T : JTypes} {D : JDesc} (h : (D.fields.all (mapsRepeated T)) = true) :
    ∀ f ∈ D.fields, ∀ id, f.ty = .msg id → (T id).entry = true → f.dyn.repeated = true := by
  intro f hf id e he
  have := List.all_eq_true.1 h f hf
  simpa [mapsRepeated, e, he] using this

theorem jsonTypes_ok : ∀ id, (jsonTypes id).Ok jsonTypes := by
  intro id
  have hm : ((jsonTypes id).fields.all (mapsRepeated jsonTypes)) = true := by
    match id with
    | 0 | 1 | 2 | 3 | 4 | 5 | 6 | 7 | 8 | 9 => decide +kernel
    | _ + 10 => rfl
  have h := jsonTypes_checked id
  have p := checked_plain h
  refine ⟨p.1, h.distinct, p.2.1, p.2.2.1, keys_apart h.apart, p.2.2.2, maps_check hm, ?_, ?_, ?_, ?_, ?_, ?_, ?_⟩
  · match id with
    | 1 | 5 => exact fun _ => ⟨_, _, rfl, rfl, rfl, rfl, rfl, rfl⟩
    | 0 | 2 | 3 | 4 | 6 | 7 | 8 | 9 | _ + 10 => intro h; cases h
  · match id with
    | 2 | 9 => exact fun _ => ⟨_, _, rfl, rfl, rfl, rfl, rfl, rfl, rfl⟩
    | 0 | 1 | 3 | 4 | 5 | 6 | 7 | 8 | _ + 10 => intro h; rcases h with h | h <;> cases h
  · match id with
    | 8 => exact fun _ => ⟨_, rfl, rfl, rfl⟩
    | 0 | 1 | 2 | 3 | 4 | 5 | 6 | 7 | 9 | _ + 10 => intro h; cases h
  · match id with
    | 3 => exact fun _ => ⟨_, _, _, _, _, _, _, _, _, rfl, rfl, rfl, rfl, rfl, rfl, rfl, rfl, rfl, rfl, rfl, rfl, by decide +kernel⟩
    | 0 | 1 | 2 | 4 | 5 | 6 | 7 | 8 | 9 | _ + 10 => intro h; cases h
  · match id with
    | 4 => exact fun _ => ⟨_, _, rfl, rfl, rfl, rfl⟩
    | 0 | 1 | 2 | 3 | 5 | 6 | 7 | 8 | 9 | _ + 10 => intro h; cases h
  · match id with
    | 6 => exact fun _ => ⟨_, _, rfl, rfl, rfl, rfl, rfl⟩
    | 0 | 1 | 2 | 3 | 4 | 5 | 7 | 8 | 9 | _ + 10 => intro h; cases h
  · match id with
    | 7 => exact fun _ => ⟨_, rfl, rfl, (by intro _ h; cases h), (by intro _ h; cases h)⟩
    | 0 | 1 | 2 | 3 | 4 | 5 | 6 | 8 | 9 | _ + 10 => intro h; cases h

theorem jsonTypes_noTrap : jsonTypes.NoTrap := by
  refine ⟨?_, ?_⟩
  · intro id
    match id with
    | 0 | 1 | 2 | 3 | 4 | 5 | 6 | 7 | 8 | 9 | _ + 10 => intro h; cases h
  · intro id h f hf hr t e
    match id with
    | 1 | 2 | 3 | 5 | 7 | 9 =>
      simp only [jsonTypes, List.mem_cons, List.not_mem_nil, or_false] at hf
      rcases hf with rfl | rfl | rfl | rfl | rfl | rfl <;> cases hr
    | 0 =>
      simp only [jsonTypes, jsonPerson, List.mem_cons, List.not_mem_nil, or_false] at hf
      rcases hf with rfl | rfl | rfl | rfl | rfl | rfl | rfl | rfl | rfl | rfl <;> cases hr <;> cases e
      exact ⟨by simp [jsonTypes], by simp [jsonTypes]⟩
    | 4 =>
      simp only [jsonTypes, List.mem_cons, List.not_mem_nil, or_false] at hf
      subst hf
      cases e
      exact ⟨by simp [jsonTypes], by simp [jsonTypes]⟩
    | 6 => rcases h with h | h
           · cases h
           · exact absurd rfl h
    | 8 =>
      simp only [jsonTypes, List.mem_cons, List.not_mem_nil, or_false] at hf
      subst hf
      cases e
    | _ + 10 => cases hf

end HppProto.Props
