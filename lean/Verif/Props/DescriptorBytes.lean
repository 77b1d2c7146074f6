import Verif.Proofs.DescriptorSet
import Verif.Proofs.DescriptorTidy
import Verif.Proofs.FactoryEnv
import Verif.Props.Factory
import Verif.Props.FactoryJson
import Verif.Props.Members
/-! C117: making a factory from bytes. C118: which files are taken for the files of the well-known types. -/
namespace HppProto.Props
open HppProto Spec Json Desc

/-- The files of a `FileDescriptorSet`. The number of levels is more than an object that was read has (C117_levels). -/
def filesOf (m : Msg) : List FileProto := (itemsOf m 0).map (fileOf 102)

theorem init_eq (B : ByteEnv) {order : FileMap → FileMap} (ho : ∀ m, (order m).Perm m) (ms : List Msg) :
    initializeSet B order ms = createFactory (B.env ms) order (ms.map (fileOf 102)) := by
  unfold initializeSet
  rcases create_cases (B.env ms) ho (ms.map (fileOf 102)) with ⟨⟨F, h⟩, -⟩ | ⟨h, -⟩ <;> rw [h] <;> rfl

theorem descriptor_outcome (limit id : Nat) (old : Msg) (buf : List Byte) :
    (∃ m, readBinpb descriptorCfg limit id old buf = .ok m) ∨ ∃ e, readBinpb descriptorCfg limit id old buf = .err e := by
  rcases C18_terminates_partial descriptorCfg limit id old buf with ⟨m, h, -⟩ | h | ⟨-, h⟩
  · exact .inl ⟨m, h⟩
  · exact .inr h
  · exact absurd descriptor_schemaOk.oneofs h

/-- C117. Any bytes: if they cannot be read as a `FileDescriptorSet`, the error is `descriptor_deserialization_error`. Otherwise there
is a factory exactly if the files in it make sense (C110), and the error is `schema_validation_error` if they do not. -/
theorem C117_outcomes (B : ByteEnv) (order : FileMap → FileMap) (ho : ∀ m, (order m).Perm m) (bytes : List Byte) (old : Msg) :
    ((∃ e, readBinpb descriptorCfg 100 0 old bytes = .err e) ∧ createFromBinpb B order bytes = .err .badMessage) ∨
    ∃ m, readBinpb descriptorCfg 100 0 old bytes = .ok m ∧
      (((∃ F, createFromBinpb B order bytes = .ok F) ∧ WellFormed (filesOf m) ∧ FactoryOk B.float (filesOf m)) ∨
       (createFromBinpb B order bytes = .err .invalidArgument ∧ ¬ (WellFormed (filesOf m) ∧ FactoryOk B.float (filesOf m)))) := by
  have e0 : readBinpb descriptorCfg 100 0 (descriptorCfg.schema 0).default bytes = readBinpb descriptorCfg 100 0 old bytes := by
    rw [readBinpb_eq, readBinpb_eq]
  unfold createFromBinpb
  rw [e0]
  rcases descriptor_outcome 100 0 old bytes with ⟨m, h⟩ | ⟨e, h⟩
  · refine .inr ⟨m, h, ?_⟩
    rw [h]
    show ((∃ F, initializeSet B order (itemsOf m 0) = .ok F) ∧ _) ∨ (initializeSet B order (itemsOf m 0) = _ ∧ _)
    rw [init_eq B ho]
    exact create_cases (B.env (itemsOf m 0)) ho _
  · refine .inl ⟨⟨e, h⟩, ?_⟩
    rw [h]; rfl

theorem read_bytes (B : ByteEnv) {order : FileMap → FileMap} (ho : ∀ m, (order m).Perm m) {bytes : List Byte} {old m : Msg}
    (h : readBinpb descriptorCfg 100 0 old bytes = .ok m) :
    createFromBinpb B order bytes = createFactory (B.env (itemsOf m 0)) order (filesOf m) := by
  have h' : readBinpb descriptorCfg 100 0 (descriptorCfg.schema 0).default bytes = .ok m := by
    rw [readBinpb_eq] at h ⊢; exact h
  unfold createFromBinpb
  rw [h']
  exact init_eq B ho _

theorem items_list (ms : List Msg) : itemsOf (setMsg ms) 0 = ms := by
  simp [itemsOf, setMsg, listMember, MsgOf.get, Val.asMsg, Function.comp_def]

/-- C117. All levels of messages in a file that was read are taken into account. -/
theorem C117_levels (old m : Msg) (bytes : List Byte) (h : readBinpb descriptorCfg 100 0 old bytes = .ok m) {x : Msg}
    (hx : x ∈ itemsOf m 0) (n : Nat) (hn : 100 ≤ n) : fileOf n x = fileOf 102 x := by
  have ho := (tidy_items (descriptor_read h) (i := 0) (sub := 1) rfl rfl).2.2.1 x hx
  exact fileOf_levels ho hn (by omega)

/-- C117. Files written as a `FileDescriptorSet`, as `protoc` does, make the factory of these files. -/
theorem C117_written_set (B : ByteEnv) (order : FileMap → FileMap) (ho : ∀ m, (order m).Perm m) (fs : List FileProto) {d : Nat}
    (hd : d ≤ 96) (hf : ∀ f ∈ fs, fileFits d f)
    (hl : (wire descriptorCfg 100 0 (setMsg (fs.map (fileMsg d)))).length < 2 ^ 31 - 1) :
    ∃ out, writeBinpb descriptorCfg 100 true 0 (setMsg (fs.map (fileMsg d))) [] = .ok (none, out) ∧
      createFromBinpb B order out = createFactory (B.env (fs.map (fileMsg d))) order fs ∧
      ((∃ F, createFromBinpb B order out = .ok F) ↔ WellFormed fs ∧ FactoryOk B.float fs) := by
  have hobj : objOk descriptorCfg 101 0 (setMsg (fs.map (fileMsg d))) := by
    refine set_obj (d := 100) fun m hm => ?_
    obtain ⟨f, hf', rfl⟩ := List.mem_map.1 hm
    exact objLike_le (by omega) (file_obj (hf f hf'))
  obtain ⟨r1, r2, r3⟩ := C10_round_trip_partial descriptorCfg descriptor_schemaOk 100 0 _ ⟨[], []⟩ [] (objLike_weaken hobj)
    (Nat.lt_trans hl (by decide))
  obtain ⟨out, hw⟩ := r3 hl
  have hr := r1 out hw
  rw [r2 hobj] at hr
  have hfs : filesOf (setMsg (fs.map (fileMsg d))) = fs := by
    unfold filesOf
    rw [items_list, List.map_map]
    exact (List.map_congr_left fun f hf' => fileOf_msg (hf f hf') (by omega)).trans (List.map_id _)
  have hc := read_bytes B ho hr
  rw [hfs, items_list] at hc
  exact ⟨out, hw, hc, by rw [hc]; exact C110_accepts _ order ho fs⟩

/-! ## Serialized files -/

theorem readFiles_cases : ∀ ds : List (List Byte),
    (∃ ms, readFiles ds = .ok ms ∧ All2 (fun d x => ∀ old, readBinpb descriptorCfg 100 1 old d = .ok x) ds ms) ∨
    ((∃ e, readFiles ds = .err e) ∧ ∃ d ∈ ds, ∀ old, ∃ e, readBinpb descriptorCfg 100 1 old d = .err e)
  | [] => .inl ⟨[], rfl, trivial⟩
  | d :: ds => by
    unfold readFiles
    rcases descriptor_outcome 100 1 (descriptorCfg.schema 1).default d with ⟨m, h⟩ | ⟨e, h⟩
    · have hm : ∀ old, readBinpb descriptorCfg 100 1 old d = .ok m := fun old => by rw [readBinpb_eq] at h ⊢; exact h
      rcases readFiles_cases ds with ⟨ms, h1, h2⟩ | ⟨⟨e, h1⟩, x, hx, h2⟩
      · refine .inl ⟨m :: ms, ?_, hm, h2⟩
        rw [h, h1]; rfl
      · refine .inr ⟨⟨e, ?_⟩, x, List.mem_cons_of_mem _ hx, h2⟩
        rw [h, h1]; rfl
    · refine .inr ⟨⟨e, by rw [h]; rfl⟩, d, List.mem_cons_self, fun old => ⟨e, ?_⟩⟩
      rw [readBinpb_eq] at h ⊢; exact h

theorem all2_get {α β : Type} {R : α → β → Prop} : ∀ {l : List α} {r : List β}, All2 R l r → ∀ a ∈ l, ∃ b, R a b
  | [], _, _, a, h => absurd h List.not_mem_nil
  | x :: l, [], h, _, _ => by simp [All2] at h
  | x :: l, y :: r, h, a, ha => by
    rcases List.mem_cons.1 ha with rfl | ha
    · exact ⟨y, h.1⟩
    · exact all2_get h.2 a ha

theorem all2_imp {α β : Type} {R S : α → β → Prop} : ∀ {l : List α} {r : List β}, (∀ a ∈ l, ∀ b, R a b → S a b) → All2 R l r → All2 S l r
  | [], [], _, _ => trivial
  | [], _ :: _, _, h => by simp [All2] at h
  | _ :: _, [], _, h => by simp [All2] at h
  | x :: l, y :: r, hi, h => ⟨hi x List.mem_cons_self y h.1, all2_imp (fun a ha => hi a (List.mem_cons_of_mem _ ha)) h.2⟩

/-- C117. Serialized files make the same factory, or the same error, as the `FileDescriptorSet` made of them. The only exception is a
file that is nested so deeply that it can be read by itself but not inside a set; then the set is rejected. -/
theorem C117_descs (B : ByteEnv) (order : FileMap → FileMap) (ds : List (List Byte)) (hl : ∀ d ∈ ds, d.length < 2 ^ 32) :
    createFromDescs B order ds = createFromBinpb B order (setBytes ds) ∨
    (createFromBinpb B order (setBytes ds) = .err .badMessage ∧
      ∃ d ∈ ds, ∃ old, readBinpb descriptorCfg 99 1 old d = .err .valueTooLarge ∧ ∃ x, readBinpb descriptorCfg 100 1 old d = .ok x) := by
  have bad : (¬ ∃ m, readBinpb descriptorCfg 100 0 (descriptorCfg.schema 0).default (setBytes ds) = .ok m) →
      createFromBinpb B order (setBytes ds) = .err .badMessage := by
    intro h
    rcases descriptor_outcome 100 0 (descriptorCfg.schema 0).default (setBytes ds) with h' | ⟨e, h'⟩
    · exact absurd h' h
    · unfold createFromBinpb; rw [h']; rfl
  have set := @read_set ds hl 99 (descriptorCfg.schema 0).default
  rcases readFiles_cases ds with ⟨ms, h1, h2⟩ | ⟨⟨e, h1⟩, d, hd, h2⟩
  · by_cases hx : ∀ d ∈ ds, readBinpb descriptorCfg 99 1 (descriptorCfg.schema 0).default d =
        readBinpb descriptorCfg 100 1 (descriptorCfg.schema 0).default d
    · refine .inl ?_
      have hr := (set (m := setMsg ms)).2 ⟨ms, rfl, all2_imp (fun a ha b h => (hx a ha).trans (h _)) h2⟩
      unfold createFromDescs createFromBinpb
      rw [h1, hr]
      show initializeSet B order ms = initializeSet B order (itemsOf (setMsg ms) 0)
      rw [items_list]
    · refine .inr ?_
      have hex : ∃ d ∈ ds, readBinpb descriptorCfg 99 1 (descriptorCfg.schema 0).default d ≠
          readBinpb descriptorCfg 100 1 (descriptorCfg.schema 0).default d := by
        false_or_by_contra
        rename_i hn
        exact hx fun d hd => by
          false_or_by_contra
          rename_i hne
          exact hn ⟨d, hd, hne⟩
      obtain ⟨d, hd, hne⟩ := hex
      have hlow := (C26_limit_monotone descriptorCfg 99 100 1 (by omega) (descriptorCfg.schema 0).default d).resolve_left hne
      obtain ⟨x, hx'⟩ := all2_get h2 d hd
      refine ⟨bad fun ⟨m, hm⟩ => ?_, d, hd, _, hlow, x, hx' _⟩
      obtain ⟨ms', -, h3⟩ := set.1 hm
      obtain ⟨y, hy⟩ := all2_get h3 d hd
      rw [hlow] at hy
      cases hy
  · refine .inl ?_
    have : createFromDescs B order ds = .err .badMessage := by unfold createFromDescs; rw [h1]; rfl
    rw [this, bad]
    rintro ⟨m, hm⟩
    obtain ⟨ms', -, h3⟩ := set.1 hm
    obtain ⟨y, hy⟩ := all2_get h3 d hd
    obtain ⟨e, he⟩ := h2 (descriptorCfg.schema 0).default
    rcases C26_limit_monotone descriptorCfg 99 100 1 (by omega) (descriptorCfg.schema 0).default d with h | h
    · rw [h, he] at hy; cases hy
    · rw [h] at hy; cases hy

theorem all2_nodup {α β γ : Type} {R : α → β → Prop} {g : β → γ} (hR : ∀ a x y, R a x → R a y → x = y) :
    ∀ {l : List α} {r : List β}, All2 R l r → (r.map g).Nodup → l.Nodup
  | [], _, _, _ => .nil
  | _ :: _, [], h, _ => by simp [All2] at h
  | a :: l, b :: r, h, hn => by
    rw [List.map_cons, List.nodup_cons] at hn
    refine List.nodup_cons.2 ⟨fun ha => hn.1 ?_, all2_nodup hR h.2 hn.2⟩
    have mem : ∀ {l : List α} {r : List β}, All2 R l r → a ∈ l → ∃ x ∈ r, R a x := by
      intro l
      induction l with
      | nil => intro r _ h; cases h
      | cons y l ih =>
        intro r h2 hm
        cases r with
        | nil => simp [All2] at h2
        | cons z r =>
          rcases List.mem_cons.1 hm with rfl | hm
          · exact ⟨z, List.mem_cons_self, h2.1⟩
          · obtain ⟨x, hx, hr⟩ := ih h2.2 hm
            exact ⟨x, List.mem_cons_of_mem _ hx, hr⟩
    obtain ⟨x, hx, hr⟩ := mem h.2 ha
    exact hR a b x h.1 hr ▸ List.mem_map_of_mem hx

theorem nodup_eraseDups {α : Type} [BEq α] [LawfulBEq α] (l : List α) : l.eraseDups.Nodup := by
  match l with
  | [] => exact .nil
  | a :: as =>
    rw [List.eraseDups_cons]
    refine List.nodup_cons.2 ⟨fun h => ?_, nodup_eraseDups _⟩
    rw [List.mem_eraseDups, List.mem_filter] at h
    simp at h
  termination_by l.length
  decreasing_by
    have := List.length_filter_le (fun b => !b == a) as
    simp only [List.length_cons]
    omega

/-- C117. The same file twice is rejected: there is no factory. -/
theorem C117_duplicates (B : ByteEnv) (order : FileMap → FileMap) (ho : ∀ m, (order m).Perm m) (ds : List (List Byte))
    (hd : ¬ ds.Nodup) (F : Factory) : createFromDescs B order ds ≠ .ok F := by
  intro h
  rcases readFiles_cases ds with ⟨ms, h1, h2⟩ | ⟨⟨e, h1⟩, -⟩
  · have h' : createFactory (B.env ms) order (ms.map (fileOf 102)) = .ok F := by
      unfold createFromDescs at h
      rw [h1] at h
      exact (init_eq B ho ms).symm.trans h
    have hw := ((C110_accepts (B.env ms) order ho _).1 ⟨F, h'⟩).1.file_names
    rw [List.map_map] at hw
    refine hd (all2_nodup (fun d x y hx hy => ?_) h2 hw)
    have := hx ⟨[], []⟩
    rw [hy ⟨[], []⟩] at this
    exact (Res.ok.inj this).symm
  · unfold createFromDescs at h
    rw [h1] at h
    cases h

/-- C117. `make_file_descriptor_set` reads every distinct file once. -/
theorem C117_distinct (hash : List (List Byte) → List (List Byte)) (hh : ∀ l, (hash l).Perm l) (ds : List (List Byte)) (ms : List Msg)
    (h : makeFileSet hash ds = .ok ms) (old : Msg) :
    ∃ ds', ds'.Nodup ∧ (∀ d, d ∈ ds' ↔ d ∈ ds) ∧ All2 (fun d x => readBinpb descriptorCfg 100 1 old d = .ok x) ds' ms := by
  unfold makeFileSet at h
  rcases readFiles_cases (hash ds.eraseDups) with ⟨ms', h1, h2⟩ | ⟨⟨e, h1⟩, -⟩
  · rw [h1] at h
    obtain rfl := Res.ok.inj h
    exact ⟨_, (hh _).nodup_iff.2 (nodup_eraseDups _), fun d => by rw [(hh _).mem_iff, List.mem_eraseDups], all2_imp (fun _ _ _ h => h old) h2⟩
  · rw [h1] at h; cases h

/-! ## Well-known files -/

/-- C118. A file has the built-in bytes of the file of its name exactly if, without its source information, it is the built-in file,
up to −0.0 in an uninterpreted option (`tidy`). -/
theorem C118_same_bytes {b m : Msg} (hb : objOk descriptorCfg 101 1 b) (hm : objLike false descriptorCfg 101 1 m)
    (hl : (wire descriptorCfg 100 1 (withoutSource m)).length < 2 ^ 31 - 1) :
    sameBytes (wire descriptorCfg 100 1 b) m = true ↔ tidy descriptorCfg 101 1 (withoutSource m) = b := by
  have hm' := obj_withoutSource hm
  have hl' : (wire descriptorCfg 100 1 (withoutSource m)).length < 2 ^ 64 := Nat.lt_trans hl (by decide)
  obtain ⟨r1, -, r3⟩ := C10_round_trip_partial descriptorCfg descriptor_schemaOk 100 1 _ ⟨[], []⟩ [] hm' hl'
  obtain ⟨out, hw⟩ := r3 hl
  obtain ⟨rfl, -⟩ := (C09_written_bytes descriptorCfg (numbers_obj descriptor_schemaOk) 100 1 _ [] hl').1 out hw
  unfold sameBytes
  rw [hw]
  show (wire descriptorCfg 100 1 (withoutSource m) == wire descriptorCfg 100 1 b) = true ↔ _
  rw [beq_iff_eq]
  constructor
  · intro e
    have hlb : (wire descriptorCfg 100 1 b).length < 2 ^ 31 - 1 := e ▸ hl
    have hlb' : (wire descriptorCfg 100 1 b).length < 2 ^ 64 := Nat.lt_trans hlb (by decide)
    obtain ⟨b1, b2, b3⟩ := C10_round_trip_partial descriptorCfg descriptor_schemaOk 100 1 b ⟨[], []⟩ [] (objLike_weaken hb) hlb'
    obtain ⟨out, hwb⟩ := b3 hlb
    obtain ⟨rfl, -⟩ := (C09_written_bytes descriptorCfg (numbers_obj descriptor_schemaOk) 100 1 b [] hlb').1 out hwb
    have h1 := r1 _ hw
    have h2 := b1 _ hwb
    rw [e, h2, b2 hb] at h1
    exact (Res.ok.inj h1).symm
  · intro e
    rw [← e]
    exact (encode_tidy _ _ _ hm').symm

/-- The built-in bytes are those of `built` of their name, which say what the files of the well-known types say. -/
structure BuiltIn (B : ByteEnv) (built : List Byte → Msg) : Prop where
  objects : ∀ f ∈ canonicalFiles, objOk descriptorCfg 101 1 (built f.name)
  bytes : ∀ f ∈ canonicalFiles, B.builtin f.name = wire descriptorCfg 100 1 (built f.name)
  files : ∀ f ∈ canonicalFiles, fileOf 102 (built f.name) = f

/-- The file is the built-in file of its name, apart from source information. -/
def IsBuiltIn (built : List Byte → Msg) (x : Msg) : Prop :=
  ∃ f ∈ canonicalFiles, f.name = textOf x 0 ∧ tidy descriptorCfg 101 1 (withoutSource x) = built f.name

theorem names_eq : wellKnownFileNames = canonicalFiles.map (·.name) := by decide

theorem nodup_inj {α β : Type} {g : α → β} : ∀ {l : List α}, (l.map g).Nodup → ∀ {a b : α}, a ∈ l → b ∈ l → g a = g b → a = b
  | [], _, _, _, h, _, _ => by cases h
  | x :: l, hn, a, b, ha, hb, e => by
    rw [List.map_cons, List.nodup_cons] at hn
    rcases List.mem_cons.1 ha with ha' | ha' <;> rcases List.mem_cons.1 hb with hb' | hb'
    · rw [ha', hb']
    · exact absurd (List.mem_map_of_mem (f := g) hb') (by rw [← e, ha']; exact hn.1)
    · exact absurd (List.mem_map_of_mem (f := g) ha') (by rw [e, hb']; exact hn.1)
    · exact nodup_inj hn.2 ha' hb' e

open Classical in
/-- C118. A factory made from bytes is one whose well-known files are the built-in ones, so that C114 and C115 hold for it. -/
theorem C118_factory {B : ByteEnv} {built : List Byte → Msg} (hB : BuiltIn B built) {order : FileMap → FileMap}
    (ho : ∀ m, (order m).Perm m) {bytes : List Byte} {old m : Msg} {F : Factory}
    (hr : readBinpb descriptorCfg 100 0 old bytes = .ok m) (h : createFromBinpb B order bytes = .ok F)
    (hl : ∀ x ∈ itemsOf m 0, (wire descriptorCfg 100 1 (withoutSource x)).length < 2 ^ 31 - 1) :
    ∃ E : FactoryEnv, createFactory E order (filesOf m) = .ok F ∧ E.float = B.float ∧
      (∀ f, E.canonical f = true → f ∈ canonicalFiles) ∧
      ∀ x ∈ itemsOf m 0, E.canonical (fileOf 102 x) = true ↔ IsBuiltIn built x := by
  rw [read_bytes B ho hr] at h
  have hobj : ∀ x ∈ itemsOf m 0, objLike false descriptorCfg 101 1 x := fun x hx =>
    objLike_le (by omega) ((tidy_items (descriptor_read hr) (i := 0) (sub := 1) rfl rfl).2.2.1 x hx)
  have hn := ((C110_accepts _ order ho _).1 ⟨F, h⟩).1.file_names
  have hn' : ((itemsOf m 0).map fun x => textOf x 0).Nodup := by
    rw [filesOf, List.map_map] at hn; exact hn
  have isFile : ∀ x ∈ itemsOf m 0, IsBuiltIn built x → fileOf 102 x ∈ canonicalFiles := by
    rintro x hx ⟨f, hf, -, e⟩
    have := tidy_file (obj_withoutSource (hobj x hx)) (a := 102) (b := 102) (by omega) (by omega)
    rw [e, fileOf_withoutSource, hB.files f hf] at this
    exact this ▸ hf
  let E : FactoryEnv := ⟨B.float, fun f => decide (∃ x ∈ itemsOf m 0, fileOf 102 x = f ∧ IsBuiltIn built x)⟩
  have hE : ∀ x ∈ itemsOf m 0, E.canonical (fileOf 102 x) = true ↔ IsBuiltIn built x := by
    intro x hx
    show decide _ = true ↔ _
    rw [decide_eq_true_iff]
    constructor
    · rintro ⟨y, hy, e, hb⟩
      exact nodup_inj hn' hy hx (congrArg FileProto.name e) ▸ hb
    · exact fun hb => ⟨x, hx, rfl, hb⟩
  refine ⟨E, ?_, rfl, ?_, hE⟩
  · rw [← h]
    refine create_env ho rfl fun f hf => ?_
    obtain ⟨x, hx, rfl⟩ := List.mem_map.1 hf
    unfold fileValidated
    cases hw : wellKnownFileNames.contains (fileOf 102 x).name with
    | false => rfl
    | true =>
      rw [List.contains_iff_mem, names_eq] at hw
      obtain ⟨f, hf, e⟩ := List.mem_map.1 hw
      have e' : f.name = textOf x 0 := e
      have hfind : (itemsOf m 0).find? (fun y => textOf y 0 == (fileOf 102 x).name) = some x := by
        cases hy : (itemsOf m 0).find? (fun y => textOf y 0 == (fileOf 102 x).name) with
        | none => exact absurd (List.find?_eq_none.1 hy x hx) (by simp [fileOf])
        | some y =>
          have h1 := List.find?_some hy
          have h2 := List.mem_of_find?_eq_some hy
          rw [nodup_inj hn' h2 hx (beq_iff_eq.1 h1)]
      rw [Bool.true_and, Bool.true_and, Bool.eq_iff_iff, hE x hx, Iff.comm]
      show Option.any (fun y => sameBytes (B.builtin (fileOf 102 x).name) y)
        ((itemsOf m 0).find? fun y => textOf y 0 == (fileOf 102 x).name) = true ↔ _
      rw [hfind, ← e, hB.bytes f hf]
      refine Iff.trans (C118_same_bytes (hB.objects f hf) (hobj x hx) (hl x hx)) ⟨fun h => ⟨f, hf, e', h⟩, ?_⟩
      rintro ⟨g, hg, eg, h⟩
      rw [h, eg, e']
  · intro f hf
    obtain ⟨x, hx, rfl, hb⟩ := decide_eq_true_iff.1 hf
    exact isFile x hx hb

/-- C118. A message of a factory made from bytes is treated as a well-known type exactly if it has the name of one and its file is the
built-in file of that name, apart from source information. -/
theorem C118_recognizes {B : ByteEnv} {built : List Byte → Msg} (hB : BuiltIn B built) {order : FileMap → FileMap}
    (ho : ∀ m, (order m).Perm m) {bytes : List Byte} {old m : Msg} {F : Factory}
    (hr : readBinpb descriptorCfg 100 0 old bytes = .ok m) (h : createFromBinpb B order bytes = .ok F)
    (hl : ∀ x ∈ itemsOf m 0, (wire descriptorCfg 100 1 (withoutSource x)).length < 2 ^ 31 - 1)
    {x : Msg} (hx : x ∈ itemsOf m 0) {d : Decl} (hd : d ∈ fileDecls (fileOf 102 x)) {i : Nat} {e : DynMsg}
    (found : F.getMessage d.name = some (i, e)) {w : Json.WellKnown} (hw : w ≠ .none) :
    (F.types i).wk = w ↔ WellKnownName d.name w ∧ IsBuiltIn built x := by
  obtain ⟨E, h1, -, h3, h4⟩ := C118_factory hB ho hr h hl
  rw [C115_recognizes ho h1 h3 (List.mem_map_of_mem hx) hd found hw, h4 x hx]

/-! ## Examples -/

/-- The built-in files, if nothing else was in them. -/
def libraryBuilt (n : List Byte) : Msg := ((canonicalFiles.find? fun f => f.name == n).map (fileMsg 3)).getD ⟨[], []⟩

def libraryBytes : ByteEnv := ⟨fun _ _ => none, fun n => wire descriptorCfg 100 1 (libraryBuilt n)⟩

theorem canonical_fits : ∀ f ∈ canonicalFiles, fileFits 3 f := by
  simp [canonicalFiles, anyFile, durationFile, timestampFile, fieldMaskFile, structFile, wrappersFile, wrapperOf, secondsNanos, fileFits,
    messageFits, fieldFits, enumFits, oneofFits, isInt32, MsgProto.fields, MsgProto.nested, MsgProto.enums, MsgProto.oneofs,
    MsgProto.extensions, MsgProto.features]

theorem library_find : ∀ f ∈ canonicalFiles, libraryBuilt f.name = fileMsg 3 f := by
  intro f hf
  simp only [canonicalFiles, List.mem_cons, List.not_mem_nil, or_false] at hf
  rcases hf with rfl | rfl | rfl | rfl | rfl | rfl <;> rfl

theorem library_builtIn : BuiltIn libraryBytes libraryBuilt where
  objects f hf := by rw [library_find f hf]; exact objLike_le (by omega) (file_obj (canonical_fits f hf))
  bytes f _ := rfl
  files f hf := by rw [library_find f hf]; exact fileOf_msg (canonical_fits f hf) (by omega)

theorem stamp_fits : ∀ f ∈ stampFiles, fileFits 3 f := by
  intro f hf
  simp only [stampFiles, List.mem_cons, List.not_mem_nil, or_false] at hf
  rcases hf with rfl | rfl | rfl
  · simp [stampFile, fileFits, messageFits, fieldFits, isInt32, MsgProto.fields, MsgProto.nested, MsgProto.enums, MsgProto.oneofs,
      MsgProto.extensions, MsgProto.features]
  · exact canonical_fits _ (by simp [canonicalFiles])
  · exact canonical_fits _ (by simp [canonicalFiles])

/-- C117, C118: a message with a timestamp, written together with the files it needs, makes a factory in which `Timestamp` and `Any`
are well-known types. -/
example : ∃ out, writeBinpb descriptorCfg 100 true 0 (setMsg (stampFiles.map (fileMsg 3))) [] = .ok (none, out) ∧
    createFromBinpb libraryBytes id out = .ok stampFactory := by
  obtain ⟨out, h1, h2, -⟩ := C117_written_set libraryBytes id id_perm stampFiles (d := 3) (by omega) stamp_fits (by decide +kernel)
  refine ⟨out, h1, h2.trans ?_⟩
  rw [stamp_created]
  have e1 : (libraryBytes.env (stampFiles.map (fileMsg 3))).canonical timestampFile = true := by decide +kernel
  have e2 : (libraryBytes.env (stampFiles.map (fileMsg 3))).canonical anyFile = true := by decide +kernel
  rw [e1, e2]

/-- The same file given twice; bytes that are no set; and a set with a file without a name. -/
example : createFromDescs libraryBytes id [[0x0a, 1, 0x61], [0x0a, 1, 0x61]] = .err .invalidArgument ∧
    createFromBinpb libraryBytes id [0x0a] = .err .badMessage ∧
    createFromBinpb libraryBytes id [0x0a, 0] = .err .invalidArgument := by
  refine ⟨?_, ?_, ?_⟩ <;> with_unfolding_all rfl

end HppProto.Props
