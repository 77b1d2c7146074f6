import Verif.Proofs.PoolView
import Verif.Spec.Meta

/-! # The fields of a message as the generator sees them -/

namespace HppProto
open Spec

namespace Meta

theorem listed_filter (p : Pool) (k : Int) (ids : List Nat) :
    listed p (ids.filter fun j => p.fields[j]?.bind (·.proto.oneofIndex) = some k) =
      (listed p ids).filter fun f => f.proto.oneofIndex = some k := by
  induction ids with
  | nil => rfl
  | cons j ids ih =>
    unfold listed at ih ⊢
    cases h : p.fields[j]? with
    | none => simp [h, ih]
    | some f =>
      by_cases hk : f.proto.oneofIndex = some k
      · simp [h, hk, ih]
      · simp [h, hk, ih]

theorem listed_map {p : Pool} {β γ : Type} {shown : FieldDesc → β} {g : γ → β} :
    ∀ {ids : List Nat} {xs : List γ}, follow p.fields shown ids = xs.map (fun x => some (g x)) →
      (listed p ids).map shown = xs.map g
  | [], [], _ => rfl
  | [], _ :: _, h => by simp [follow] at h
  | _ :: _, [], h => by simp [follow] at h
  | j :: ids, x :: xs, h => by
    unfold follow at h
    simp only [List.map_cons, List.cons.injEq] at h
    obtain ⟨f, hf, e⟩ := Option.map_eq_some_iff.1 h.1
    have ih := listed_map (p := p) (ids := ids) (xs := xs) h.2
    unfold listed at ih ⊢
    rw [List.filterMap_cons, hf]
    simp only [List.map_cons, e, ih]

/-- What is known of the fields `L` of the message `d`. -/
structure View (p : Pool) (d : MsgDesc) (L : List FieldDesc) : Prop where
  protos : L.map (·.proto) = d.proto.fields
  mem : ∀ f ∈ L, f ∈ p.fields
  proto_mem : ∀ f ∈ L, f.proto ∈ d.proto.fields
  features : ∀ f ∈ L, f.features = under d.features f.proto.features
  own : ∀ f ∈ L, f.bits.own = (fieldBits f.proto f.features).own
  presence : ∀ f ∈ L, f.bits.presence = (d.proto.mapEntry || (fieldBits f.proto f.features).presence)
  resolved : ∀ f ∈ L, Resolved p f
  members : ∀ f ∈ L, ∀ k, f.proto.oneofIndex = some k →
    oneofMembers p d k = L.filter fun g => g.proto.oneofIndex = some k
  fields : FieldsOk d.proto

theorem view_of (order : FileMap → FileMap) (ho : ∀ m, (order m).Perm m)
    {fs : List FileProto} {p : Pool} (h : initPool order fs = .ok p) {i : Nat} {d : MsgDesc}
    (hd : p.messages[i]? = some d) : View p d (listed p d.fields) := by
  have hs := initPool_sat order ho fs
  rw [h] at hs
  obtain ⟨⟨_, _, _, _, _, st⟩, hw⟩ := hs
  have hm := st.mirrors
  have e := listed_map (g := fun f : FieldProto => (f, some i, under d.features f.features)) (hm.fields i d hd)
  have ep : (listed p d.fields).map (·.proto) = d.proto.fields := by
    have := congrArg (List.map Prod.fst) e
    simpa [Function.comp_def, shownField] using this
  have hmem : ∀ f ∈ listed p d.fields, f ∈ p.fields := by
    intro f hf
    obtain ⟨j, _, hj⟩ := List.mem_filterMap.1 hf
    exact List.mem_of_getElem? hj
  have hfeat : ∀ f ∈ listed p d.fields, f.features = under d.features f.proto.features := by
    intro f hf
    have : shownField f ∈ (listed p d.fields).map shownField := List.mem_map.2 ⟨f, hf, rfl⟩
    rw [e, List.mem_map] at this
    obtain ⟨g, _, hg⟩ := this
    unfold shownField at hg
    simp only [Prod.mk.injEq] at hg
    rw [← hg.2.2, ← hg.1]
  have hfo := st.fieldsOk hw hd
  refine ⟨ep, hmem, ?_, hfeat, fun f hf => st.ownFlags (hmem f hf), ?_, fun f hf => st.resolvedField (hmem f hf), ?_, hfo⟩
  · intro f hf
    rw [← ep]
    exact List.mem_map.2 ⟨f, hf, rfl⟩
  · intro f hf
    obtain ⟨j, hj, hf⟩ := List.mem_filterMap.1 hf
    obtain ⟨g, hg, e⟩ := st.field hd hj
    rw [hf, Option.some.injEq] at e
    rw [e]
    show (newField i d.proto.mapEntry d.features g).bits.presence = _
    rw [newField_presence]
    show _ = (_ || (fieldBits (newField i d.proto.mapEntry d.features g).proto _).presence)
    rw [newField_proto]
    rfl
  · intro f hf k hk
    have hp : f.proto ∈ d.proto.fields := by rw [← ep]; exact List.mem_map.2 ⟨f, hf, rfl⟩
    obtain ⟨_, h0, hlt⟩ := hfo.members _ hp k hk
    have hlen : d.oneofs.length = d.proto.oneofs.length := by
      have := congrArg List.length (hm.oneofs i d hd)
      simpa [follow] using this
    have hget : d.oneofs[k.toNat]? = some (d.oneofs[k.toNat]'(by omega)) := List.getElem?_eq_getElem (by omega)
    have hmm := hm.members i d hd k.toNat _ hget
    obtain ⟨x, hx, hxf⟩ := Option.map_eq_some_iff.1 hmm
    unfold oneofMembers
    rw [show oneofSlot k = some k.toNat from by unfold oneofSlot; rw [if_neg (by omega)]]
    simp only [Option.bind_some, hget, hx]
    rw [hxf, show ((k.toNat : Nat) : Int) = k from by omega]
    exact listed_filter p k d.fields

end Meta
end HppProto
