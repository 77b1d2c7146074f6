import Verif.Proofs.RegBuild
/-! # Reading through the region machine against reading a list -/
namespace HppProto
open Spec

theorem final_of_start {C : Cfg} {tot : List Byte} {H : Mems} {s : Arch} {contig : Bool} {G : Ghost}
    (hG : RV H tot contig G 0 11 s ⟨[], tot⟩) (limit id : Nat) (m0 : Msg) :
    (((level C (regOps H contig) (limit + 1)).msg id m0 s >>= fun p => Res.ok p.2).Fine (ClosedInOneof C)) ∧
    ∀ m, ((level C (regOps H contig) (limit + 1)).msg id m0 s >>= fun p => Res.ok p.2) = .ok m ↔
      parseOnto C limit id m0 tot = .ok m := by
  obtain ⟨s1, s2, s3⟩ := (sim_level C H tot contig (limit + 1)).msg G id m0 s _ hG
  unfold parseOnto
  refine ⟨?_, fun m => ?_⟩
  · exact fine_bind s1 (fun _ _ => fine_ok _)
  · cases hx : (level C (regOps H contig) (limit + 1)).msg id m0 s with
    | ok b =>
      rcases s3 b hx with ⟨c, hy, hq⟩ | hf
      · rw [hy]
        obtain ⟨b1, b2⟩ := b
        obtain ⟨c1, c2⟩ := c
        have : b2 = c2 := hq.1
        subst this
        exact Iff.rfl
      · exact hf.elim
    | err e =>
      refine ⟨fun h => (by cases h), fun h => ?_⟩
      cases hy : (level C flatOps (limit + 1)).msg id m0 ⟨[], tot⟩ with
      | ok c => rcases s2 c hy with ⟨b, hb, -⟩ | ⟨hf, -⟩
                · rw [hx] at hb; cases hb
                · exact hf.elim
      | err e => rw [hy] at h; cases h
      | throw => rw [hy] at h; cases h
      | ub => rw [hy] at h; cases h
      | stuck => rw [hy] at h; cases h
    | throw =>
      refine ⟨fun h => (by cases h), fun h => ?_⟩
      cases hy : (level C flatOps (limit + 1)).msg id m0 ⟨[], tot⟩ with
      | ok c => rcases s2 c hy with ⟨b, hb, -⟩ | ⟨hf, -⟩
                · rw [hx] at hb; cases hb
                · exact hf.elim
      | err e => rw [hy] at h; cases h
      | throw => rw [hy] at h; cases h
      | ub => rw [hy] at h; cases h
      | stuck => rw [hy] at h; cases h
    | ub => exact absurd hx s1.1
    | stuck => exact absurd hx s1.2.1

theorem sim_final {C : Cfg} {segs : List (List Byte)} {H : Mems} {s : Arch} {contig : Bool} (h : Built segs H s)
    (hc : contig = true → segs.length = 1) (limit id : Nat) (m0 : Msg) :
    (((level C (regOps H contig) (limit + 1)).msg id m0 s >>= fun p => Res.ok p.2).Fine (ClosedInOneof C)) ∧
    ∀ m, ((level C (regOps H contig) (limit + 1)).msg id m0 s >>= fun p => Res.ok p.2) = .ok m ↔
      parseOnto C limit id m0 segs.flatten = .ok m := by
  obtain ⟨G, hG⟩ := h.start hc
  exact final_of_start hG limit id m0

/-- No segments at all. -/
theorem no_segments (C : Cfg) (limit id : Nat) (old : Msg) : readSegments C limit id old [] = readBinpb C limit id old [] := by
  have hb : buildArchive [] = .ok ([[]], ⟨nullRegion 0, [], 0⟩) := rfl
  unfold readSegments readBinpb parseOnto
  rw [hb]
  show (msgBody C (regOps [[]] false) _ id _ _ >>= _) = (msgBody C flatOps _ id _ _ >>= _)
  have ha : (regOps [[]] false).avail ⟨nullRegion 0, [], 0⟩ = 0 := rfl
  have hf : flatOps.avail ⟨[], []⟩ = 0 := rfl
  unfold msgBody fuelOf
  simp only [ha, hf, Int.lt_irrefl, and_false, if_false]
  rfl

theorem segments_agree (C : Cfg) (limit id : Nat) (old : Msg) (segs : List (List Byte)) :
    (readSegments C limit id old segs).Fine (ClosedInOneof C) ∧
    ∀ m, readSegments C limit id old segs = .ok m ↔ readBinpb C limit id old segs.flatten = .ok m := by
  by_cases hs : segs = []
  · subst hs
    rw [no_segments]
    exact ⟨parseOnto_fine C limit id _ _, fun _ => Iff.rfl⟩
  · obtain ⟨H, s, hb, hB⟩ := build_ok hs
    have := sim_final (C := C) (contig := false) hB (by simp) limit id ((C.schema id).reset old)
    unfold readSegments
    rw [hb, ok_bind]
    exact this

theorem contiguous_agrees (C : Cfg) (limit id : Nat) (old : Msg) (buf : List Byte) :
    (readContiguous C limit id old buf).Fine (ClosedInOneof C) ∧
    ∀ m, readContiguous C limit id old buf = .ok m ↔ readBinpb C limit id old buf = .ok m := by
  obtain ⟨H, s, hb, hB⟩ := build_ok (segs := [buf]) (by simp)
  have := sim_final (C := C) (contig := true) hB (by simp) limit id ((C.schema id).reset old)
  rw [show [buf].flatten = buf by simp] at this
  unfold readContiguous
  rw [hb, ok_bind]
  exact this

end HppProto
