import Verif.Proofs.DescriptorFiles
import Verif.Spec.JsonForm
import Verif.Props.Merge
import Verif.Props.Read
/-! Reading a `FileDescriptorSet` is reading its files. -/
namespace HppProto
open Spec Json

/-- A file as a record of a set. -/
def fileRec (d : List Byte) : Rec := .len (makeTag 1 wtLen) (Spec.tag 1 2) (leb d.length) d

theorem fileRec_wf {d : List Byte} (h : d.length < 2 ^ 32) : (fileRec d).wf ∧ (fileRec d).raw = lenRecord 1 d ∧ tagNumber (fileRec d).tag = 1 := by
  obtain ⟨t1, t2, t3, -, -⟩ := tag_read (n := 1) (wt := wtLen) (w := 2) (by decide) rfl (by omega)
  have hp := leb_varint (v := d.length) (k := 6) (by rw [leb_eq]; exact Nat.le_trans (packVarint_length_le5 h) (by omega))
  refine ⟨?_, ?_, t3⟩
  · unfold fileRec Rec.wf
    exact ⟨t1, t2, hp.1, by rw [hp.2]; omega⟩
  · show Spec.tag 1 2 ++ (leb d.length ++ d) = Spec.tag 1 2 ++ leb d.length ++ d
    rw [List.append_assoc]

theorem fileRecs_wf : ∀ {ds : List (List Byte)}, (∀ d ∈ ds, d.length < 2 ^ 32) → wfAll (ds.map fileRec) ∧ rawAll (ds.map fileRec) = setBytes ds
  | [], _ => ⟨trivial, rfl⟩
  | d :: ds, h => by
    obtain ⟨h1, h2⟩ := fileRecs_wf (ds := ds) (fun x hx => h x (List.mem_cons_of_mem _ hx))
    obtain ⟨r1, r2, -⟩ := fileRec_wf (h d List.mem_cons_self)
    refine ⟨?_, ?_⟩
    · simp only [List.map_cons]; unfold wfAll; exact ⟨r1, h1⟩
    · show (fileRec d).raw ++ rawAll (ds.map fileRec) = _
      rw [r2, h2]
      rfl

theorem set_step {S : Sem} {d : List Byte} (hd : d.length < 2 ^ 32) {c : Bool} {es : List (Nat × Val)} {m : Msg} :
    step descriptorCfg S (descriptorCfg.schema 0) c (fileRec d) ⟨[es], []⟩ m ↔
      ∃ e, S.msg 1 (descriptorCfg.schema 1).default d e ∧ m = ⟨[es ++ [(0, .msg e)]], []⟩ := by
  obtain ⟨-, -, t⟩ := fileRec_wf hd
  unfold step
  rw [t, show (descriptorCfg.schema 0).find 1 = some 0 by decide]
  constructor
  · rintro ⟨-, sd, hs, h⟩
    obtain rfl : SlotD.field 1 (.msg 1) (.repeated false) = sd := Option.some.inj hs
    obtain ⟨e, ⟨-, h1⟩, rfl⟩ := h
    exact ⟨e, h1, rfl⟩
  · rintro ⟨e, h1, rfl⟩
    refine ⟨by decide, _, rfl, ?_⟩
    exact ⟨e, ⟨by intro h; exact absurd h.2 (by decide), h1⟩, rfl⟩

theorem set_fold {S : Sem} : ∀ {ds : List (List Byte)}, (∀ d ∈ ds, d.length < 2 ^ 32) → ∀ {last : Option (BitVec 32)} {es : List (Nat × Val)} {m : Msg},
    fold descriptorCfg S (descriptorCfg.schema 0) last (ds.map fileRec) ⟨[es], []⟩ m ↔
      ∃ ms, m = ⟨[es ++ listMember ms], []⟩ ∧ All2 (fun d x => S.msg 1 (descriptorCfg.schema 1).default d x) ds ms
  | [], _, last, es, m => by
    constructor
    · intro h
      obtain rfl : (⟨[es], []⟩ : Msg) = m := h
      exact ⟨[], by simp [listMember], trivial⟩
    · rintro ⟨ms, rfl, h⟩
      cases ms with
      | nil => show (⟨[es], []⟩ : Msg) = _; simp [listMember]
      | cons a l => exact absurd h (by simp [All2])
  | d :: ds, hl, last, es, m => by
    have hd := hl d List.mem_cons_self
    have ih := @set_fold S ds (fun x hx => hl x (List.mem_cons_of_mem _ hx))
    constructor
    · rintro ⟨m1, h1, h2⟩
      obtain ⟨e, he, rfl⟩ := (set_step hd).1 h1
      obtain ⟨ms, rfl, ha⟩ := ih.1 h2
      exact ⟨e :: ms, by simp [listMember], he, ha⟩
    · rintro ⟨ms, rfl, h⟩
      cases ms with
      | nil => exact absurd h (by simp [All2])
      | cons e ms =>
        refine ⟨_, (set_step hd).2 ⟨e, h.1, rfl⟩, ih.2 ⟨ms, by simp [listMember], h.2⟩⟩

theorem read_iff {limit id : Nat} {old : Msg} {buf : List Byte} {m : Msg} :
    readBinpb descriptorCfg limit id old buf = .ok m ↔ (sem descriptorCfg (limit + 1)).msg id (descriptorCfg.schema id).default buf m := by
  rw [readBinpb_eq]; exact parseOnto_iff _ _ _ _ _ _

/-- A set is read exactly if every file is, with one level less. -/
theorem read_set {ds : List (List Byte)} (hl : ∀ d ∈ ds, d.length < 2 ^ 32) {limit : Nat} {old : Msg} {m : Msg} :
    readBinpb descriptorCfg (limit + 1) 0 old (setBytes ds) = .ok m ↔
      ∃ ms, m = setMsg ms ∧ All2 (fun d x => readBinpb descriptorCfg limit 1 old d = .ok x) ds ms := by
  obtain ⟨hw, hr⟩ := fileRecs_wf hl
  simp only [read_iff]
  constructor
  · rintro ⟨rs, h1, h2, -, h3⟩
    obtain rfl := recs_unique h1 hw (h2.trans hr.symm)
    obtain ⟨ms, rfl, ha⟩ := (set_fold hl).1 h3
    exact ⟨ms, rfl, ha⟩
  · rintro ⟨ms, rfl, ha⟩
    exact ⟨_, hw, hr, fun h => absurd h (by decide), (set_fold hl (es := [])).2 ⟨ms, rfl, ha⟩⟩

end HppProto
