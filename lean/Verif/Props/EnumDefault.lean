import Verif.Model.EnumDefault
import Verif.Proofs.Names
/-!
# Claim C156: default values of enum fields

`enumOk` is the check of the generator on an enum, without which no header is written (C89).
-/
namespace HppProto.Props
open HppProto HppProto.Names HppProto.Lex

theorem find_of_nodup {vs : List EnumValue} (h : (vs.map fun e => cppName e.name).Nodup) {v : EnumValue} (hv : v ∈ vs) :
    (enumerators vs).find? (·.1 == cppName v.name) = some (cppName v.name, v.number) := by
  induction vs with
  | nil => cases hv
  | cons w vs ih =>
    rw [List.map_cons, List.nodup_cons] at h
    simp only [enumerators, List.map_cons, List.find?_cons]
    by_cases e : cppName w.name = cppName v.name
    · rcases List.mem_cons.1 hv with rfl | hv
      · simp
      · exact absurd (List.mem_map.2 ⟨v, hv, e.symm⟩) h.1
    · rcases List.mem_cons.1 hv with rfl | hv
      · exact absurd rfl e
      · rw [show (cppName w.name == cppName v.name) = false from by simpa using e]
        exact ih h.2 hv

theorem meaning_of_ok {n : Name} {vs : List EnumValue} (ok : enumOk ⟨n, vs.map EnumValue.name⟩ = true) {v : EnumValue}
    (hv : v ∈ vs) : meaning (enumerators vs) (cppName v.name) = some v.number := by
  have hn : (vs.map fun e => cppName e.name).Nodup := by
    simp only [enumOk, Bool.and_eq_true] at ok
    have := nodup_of_allNew ok.2
    rwa [List.map_map] at this
  have hm : ((enumerators vs).map Prod.fst).Nodup := by
    rw [enumerators, List.map_map]; exact hn
  rw [meaning, if_pos hm, find_of_nodup hn hv]
  rfl

/-- C156. In a header that is written, the default value of an enum field whose schema names a value of the enum is the number of
that value, whatever the names are mapped to. -/
theorem C156_named {n : Name} {vs : List EnumValue} (ok : enumOk ⟨n, vs.map EnumValue.name⟩ = true) {v : EnumValue} (hv : v ∈ vs)
    (named : v.name ≠ []) (optional : Bool) :
    ∃ x, defaultEnumerator vs v.name optional = .ok (some x) ∧ meaning (enumerators vs) x = some v.number :=
  ⟨_, if_pos named, meaning_of_ok ok hv⟩

/-- C156. An optional field without default value in its schema has the number of the first value. -/
theorem C156_first {n : Name} {v : EnumValue} {vs : List EnumValue} (ok : enumOk ⟨n, (v :: vs).map EnumValue.name⟩ = true) :
    ∃ x, defaultEnumerator (v :: vs) [] true = .ok (some x) ∧ meaning (enumerators (v :: vs)) x = some v.number :=
  ⟨_, rfl, meaning_of_ok ok List.mem_cons_self⟩

/-- C156. Whatever the default value, if the header compiles, the default is the number of a value whose name in C++ is that of
the default value. -/
theorem C156_compiles {vs : List EnumValue} {dflt : Name} {optional : Bool} {x : Name} {k : Int} (given : dflt ≠ [])
    (h : defaultEnumerator vs dflt optional = .ok (some x)) (hk : meaning (enumerators vs) x = some k) :
    ∃ v ∈ vs, v.number = k ∧ cppName v.name = cppName dflt := by
  rw [show defaultEnumerator vs dflt optional = .ok (some (cppName dflt)) from if_pos given] at h
  cases h
  unfold meaning at hk
  split at hk
  · cases hf : (enumerators vs).find? (·.1 == cppName dflt) with
    | none => rw [hf] at hk; cases hk
    | some p =>
      rw [hf] at hk
      cases hk
      have h1 := List.mem_of_find?_eq_some hf
      have h2 := List.find?_some hf
      obtain ⟨v, hv, rfl⟩ := List.mem_map.1 h1
      exact ⟨v, hv, rfl, by simpa using h2⟩
  · cases hk

/-- C156. So a plain member starts with the number of the value that the schema names, and without one, if it is optional, with
the number of the first value. -/
theorem C156_member {n : Name} {v : EnumValue} {vs : List EnumValue} (ok : enumOk ⟨n, (v :: vs).map EnumValue.name⟩ = true) :
    initialNumber (v :: vs) [] true = .ok (some v.number) ∧
    ∀ w ∈ v :: vs, w.name ≠ [] → ∀ optional, initialNumber (v :: vs) w.name optional = .ok (some w.number) := by
  constructor
  · obtain ⟨x, h1, h2⟩ := C156_first ok
    rw [initialNumber, h1]; exact congrArg Res.ok h2
  · intro w hw hn optional
    obtain ⟨x, h1, h2⟩ := C156_named ok hw hn optional
    rw [initialNumber, h1]; exact congrArg Res.ok h2

/-- C156. A required field without default value starts with 0, not with the first value of its enum, even if no value of the enum
has that number. -/
theorem C156_required (vs : List EnumValue) : initialNumber vs [] false = .ok (some 0) ∧
    ∃ us : List EnumValue, enumOk ⟨b!"Color", us.map EnumValue.name⟩ = true ∧ us.head?.map EnumValue.number = some 3 ∧
      ∀ u ∈ us, u.number ≠ 0 :=
  ⟨rfl, [⟨b!"RED", 3⟩, ⟨b!"GREEN", -1⟩], by decide +kernel⟩

def colors : List EnumValue := [⟨b!"RED", 3⟩, ⟨b!"class", 5⟩, ⟨b!"GREEN", -1⟩]

/-- An enum with a value named by a keyword. -/
example : enumOk ⟨b!"Color", colors.map EnumValue.name⟩ = true ∧ cppName b!"class" ≠ b!"class" ∧
    meaning (enumerators colors) (cppName b!"class") = some 5 ∧ meaning (enumerators colors) b!"BLUE" = none := by
  decide +kernel

/-- C156. The generator does not look whether the default value is the name of a value: one that is not, but becomes the same
name in C++ as one that is, is taken for it. (`protoc` refuses such schemas.) -/
theorem C156_not_checked : let vs : List EnumValue := [⟨b!"RED", 3⟩, ⟨cppName b!"class", 5⟩]
    enumOk ⟨b!"Color", vs.map EnumValue.name⟩ = true ∧ (∀ v ∈ vs, v.name ≠ b!"class") ∧
    defaultEnumerator vs b!"class" true = .ok (some (cppName b!"class")) ∧
    meaning (enumerators vs) (cppName b!"class") = some 5 := by
  refine ⟨by decide +kernel, by decide +kernel, rfl, by decide +kernel⟩

end HppProto.Props
