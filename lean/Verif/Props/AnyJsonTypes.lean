import Verif.Props.JsonTypes
import Verif.Proofs.AnyJsonLevel
import Verif.Proofs.AnyJsonFlat
import Verif.Proofs.JsonColons

/-! # Message types for the examples about `google.protobuf.Any` in JSON -/

namespace HppProto.Props
open HppProto.Json

def anyUrl := jsonField 1 (.scalar (.str true)) .string b!"type_url" b!"typeUrl" 0
def anyBytes := jsonField 2 (.scalar (.str false)) .bytes b!"value" b!"value" 1
def noteN := jsonField 1 (.scalar (.varint .i32)) (.int true false) b!"n" b!"n" 0 true
def noteMore := jsonList 2 (.msg 10) (.msg 10) b!"more" b!"more" 1
def noteChild := jsonField 3 (.msg 11) (.msg 11) b!"child" b!"child" 2 true

/-- `google.protobuf.Any` and
```
message Note { optional int32 n = 1; repeated google.protobuf.Any more = 2; Note child = 3; }
```
beside the other types. -/
def anyTypes : JTypes
  | 10 => ⟨[anyUrl, anyBytes], 2, false, .any⟩
  | 11 => ⟨[noteN, noteMore, noteChild], 3, false, .none⟩
  | id => jsonTypes id

theorem anyTypes_checked : ∀ id, Checked (anyTypes id)
  | 0 => by checked
  | 1 => by checked
  | 2 => by checked
  | 3 => by checked
  | 4 => by checked
  | 5 => by checked
  | 6 => by checked
  | 7 => by checked
  | 8 => by checked
  | 9 => by checked
  | 10 => by checked
  | 11 => by checked
  | _ + 12 => ⟨(by intro f hf; cases hf), rfl, .nil, .nil⟩

theorem anyTypes_each : ∀ id, (anyTypes id).Ok anyTypes := by
  intro id
  have hm : ((anyTypes id).fields.all (mapsRepeated anyTypes)) = true := by
    match id with
    | 0 | 1 | 2 | 3 | 4 | 5 | 6 | 7 | 8 | 9 | 10 | 11 => decide +kernel
    | _ + 12 => rfl
  have h := anyTypes_checked id
  have p := checked_plain h
  refine ⟨p.1, h.distinct, p.2.1, p.2.2.1, keys_apart h.apart, p.2.2.2, maps_check hm, ?_, ?_, ?_, ?_, ?_, ?_, ?_⟩
  · match id with
    | 1 | 5 => exact fun _ => ⟨_, _, rfl, rfl, rfl, rfl, rfl, rfl⟩
    | 0 | 2 | 3 | 4 | 6 | 7 | 8 | 9 | 10 | 11 | _ + 12 => intro h; cases h
  · match id with
    | 2 | 9 => exact fun _ => ⟨_, _, rfl, rfl, rfl, rfl, rfl, rfl, rfl⟩
    | 0 | 1 | 3 | 4 | 5 | 6 | 7 | 8 | 10 | 11 | _ + 12 => intro h; rcases h with h | h <;> cases h
  · match id with
    | 8 => exact fun _ => ⟨_, rfl, rfl, rfl⟩
    | 0 | 1 | 2 | 3 | 4 | 5 | 6 | 7 | 9 | 10 | 11 | _ + 12 => intro h; cases h
  · match id with
    | 3 => exact fun _ => ⟨_, _, _, _, _, _, _, _, _, rfl, rfl, rfl, rfl, rfl, rfl, rfl, rfl, rfl, rfl, rfl, rfl, by decide +kernel⟩
    | 0 | 1 | 2 | 4 | 5 | 6 | 7 | 8 | 9 | 10 | 11 | _ + 12 => intro h; cases h
  · match id with
    | 4 => exact fun _ => ⟨_, _, rfl, rfl, rfl, rfl⟩
    | 0 | 1 | 2 | 3 | 5 | 6 | 7 | 8 | 9 | 10 | 11 | _ + 12 => intro h; cases h
  · match id with
    | 6 => exact fun _ => ⟨_, _, rfl, rfl, rfl, rfl, rfl⟩
    | 0 | 1 | 2 | 3 | 4 | 5 | 7 | 8 | 9 | 10 | 11 | _ + 12 => intro h; cases h
  · match id with
    | 7 => exact fun _ => ⟨_, rfl, rfl, (by intro _ h; cases h), (by intro _ h; cases h)⟩
    | 0 | 1 | 2 | 3 | 4 | 5 | 6 | 8 | 9 | 10 | 11 | _ + 12 => intro h; cases h

theorem anyTypes_ok : AnyTypes anyTypes := by
  refine ⟨anyTypes_each, ?_, ?_, ?_⟩
  · intro id
    match id with
    | 10 => exact fun _ => ⟨_, _, rfl, rfl, rfl, rfl, rfl, rfl, rfl⟩
    | 0 | 1 | 2 | 3 | 4 | 5 | 6 | 7 | 8 | 9 | 11 | _ + 12 => intro h; cases h
  · intro id
    match id with
    | 1 | 5 => exact fun _ => rfl
    | 0 | 2 | 3 | 4 | 6 | 7 | 8 | 9 | 10 | 11 | _ + 12 => intro h; cases h
  · intro id
    match id with
    | 0 | 1 | 2 | 3 | 4 | 5 | 6 | 7 | 8 | 9 | 10 | 11 => decide +kernel
    | _ + 12 => intro f hf; cases hf

/-- The types by their names, without a package. -/
def anyEnv : AnyEnv where
  find name := if name = b!"Note" then some 11 else if name = b!"Int32Value" then some 7 else if name = b!"Any" then some 10 else none
  limit := 8
  skipNum s := .ok (s.dropWhile numChar)

theorem numText_chars {t : List Byte} (h : NumText t) : ∀ c ∈ t, numChar c = true := by
  have hd : ∀ c : Byte, isDigit c = true → numChar c = true := by
    intro c h
    simp [numChar, h]
  obtain ⟨sign, whole, frac, exp, rfl, hs, hw, _, hf, he⟩ := h
  intro c hc
  simp only [List.mem_append] at hc
  rcases hc with ((hc | hc) | hc) | hc
  · rcases hs with rfl | rfl
    · cases hc
    · rw [List.mem_singleton.1 hc]; decide
  · exact hd c (hw.2 c hc)
  · rcases hf with rfl | ⟨ds, h, rfl⟩
    · cases hc
    · rcases List.mem_cons.1 hc with rfl | hc
      · decide
      · exact hd c (h.2 c hc)
  · rcases he with rfl | ⟨e, s, ds, h1, h2, h3, rfl⟩
    · cases hc
    · simp only [List.cons_append, List.mem_cons, List.mem_append] at hc
      rcases hc with rfl | hc | hc
      · rcases h1 with rfl | rfl <;> decide
      · rcases h2 with rfl | rfl | rfl
        · cases hc
        · rw [List.mem_singleton.1 hc]; decide
        · rw [List.mem_singleton.1 hc]; decide
      · exact hd c (h3.2 c hc)

theorem anyEnv_lawful : anyEnv.Lawful := by
  intro t rest h hr
  have : ∀ {t : List Byte}, (∀ c ∈ t, numChar c = true) → (t ++ rest).dropWhile numChar = rest := by
    intro t
    induction t with
    | nil =>
      intro _
      cases rest with
      | nil => rfl
      | cons c r => simp only [List.nil_append]; rw [List.dropWhile_cons_of_neg]; simpa using hr
    | cons c t ih =>
      intro h
      rw [List.cons_append, List.dropWhile_cons_of_pos (h c (by simp))]
      exact ih fun x hx => h x (by simp [hx])
  show Res.ok _ = _
  rw [this (numText_chars h)]

end HppProto.Props
