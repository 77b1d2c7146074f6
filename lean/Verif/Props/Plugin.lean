import Verif.Proofs.PluginFiles

/-!
# C100-C104: what `protoc-gen-hpp` answers

`generate` (`Verif/Model/Plugin.lean`) is the answer to a request: the files of the request, the
names of the files to generate, and what becomes of them.  `E` holds what is left open here; the
theorems hold whatever it is.
-/

namespace HppProto.Props
open HppProto.Plugin HppProto.Spec.Plugin

/-! ## C100: which headers -/

/-- A response with an error has no files.  Otherwise the response has exactly the headers of the
requested files, in the order of the request. -/
theorem C100_response (E : Env) (other : Bool) (files : List File) (want : List (List Byte)) :
    ((generate E other files want).failed = true → (generate E other files want).files = []) ∧
    ((generate E other files want).failed = false →
      ∃ fs : List File, fs.map (·.name) = want ∧ (∀ f ∈ fs, f ∈ files) ∧
        (generate E other files want).files.length = (fs.flatMap fun f => (parts f).map fun q => (f, q)).length ∧
        ∀ (i : Nat) (h : Header) (f : File) (q : Part), (generate E other files want).files[i]? = some h →
          (fs.flatMap fun f => (parts f).map fun q => (f, q))[i]? = some (f, q) →
          h.part = q ∧ IsHeader f.name q h.path) := by
  refine ⟨generate_failed, ?_⟩
  intro hf
  obtain ⟨A, hr⟩ := generate_ok hf
  obtain ⟨fs, h1, h2, h3⟩ := requested_spec hr
  have key : (fs.flatMap fun f => (parts f).map fun q => (f, q)).map (fun x => header E files x.1 x.2) =
      (generate E other files want).files.map some := by
    rw [← h3, List.map_flatMap]
    simp only [List.map_map]
    rfl
  refine ⟨fs, h1, h2, by simpa using (congrArg List.length key).symm, ?_⟩
  intro i h f q hi ht
  have hm : (f, q) ∈ fs.flatMap fun f => (parts f).map fun q => (f, q) := List.mem_of_getElem? ht
  obtain ⟨g, hg, hx⟩ := List.mem_flatMap.1 hm
  obtain ⟨q', _, e⟩ := List.mem_map.1 hx
  cases e
  have e := congrArg (fun l => l[i]?) key
  simp only [List.getElem?_map, hi, ht, Option.map_some, Option.some.injEq] at e
  have hs := header_spec e
  obtain ⟨stem, hst⟩ := stem_of_namespace (A.spaces f (h2 f hg))
  exact ⟨hs.2.1, stem, hst, by rw [hs.1]; exact outName_isHeader q hst⟩

/-- A file that is not in the request cannot be generated. -/
theorem C100_unknown (E : Env) (other : Bool) (files : List File) (want : List (List Byte)) (n : List Byte)
    (hn : n ∈ want) (hm : ∀ f ∈ files, f.name ≠ n) : (generate E other files want).failed = true := by
  cases hf : (generate E other files want).failed with
  | true => rfl
  | false =>
    exfalso
    obtain ⟨fs, h1, h2, _⟩ := (C100_response E other files want).2 hf
    rw [← h1] at hn
    obtain ⟨f, hf', e⟩ := List.mem_map.1 hn
    exact hm f (h2 f hf') e

private theorem nodup_paths : ∀ (xs : List (List Byte × Part)) (hs : List Header), xs.Nodup → hs.length = xs.length →
    (∀ (i : Nat) (h : Header) (x : List Byte × Part), hs[i]? = some h → xs[i]? = some x → IsHeader x.1 x.2 h.path) →
    (hs.map (·.path)).Nodup
  | [], hs, _, hl, _ => by
    have : hs = [] := List.length_eq_zero_iff.1 (by simpa using hl)
    subst this
    exact List.nodup_nil
  | x :: xs, hs, hd, hl, hi => by
    cases hs with
    | nil => cases hl
    | cons h hs =>
      rw [List.nodup_cons] at hd
      have hl' : hs.length = xs.length := by simpa using hl
      rw [List.map_cons, List.nodup_cons]
      refine ⟨?_, nodup_paths xs hs hd.2 hl' fun i h' x' a b => hi (i + 1) h' x' (by simpa using a) (by simpa using b)⟩
      intro hm
      obtain ⟨h', hm', e⟩ := List.mem_map.1 hm
      obtain ⟨i, hlt, e'⟩ := List.getElem_of_mem hm'
      have hx : xs[i]? = some (xs[i]'(by omega)) := List.getElem?_eq_getElem (by omega)
      have a := hi (i + 1) h' (xs[i]'(by omega)) (by simp [hlt, e']) (by simp [hx])
      have b := hi 0 h x rfl rfl
      rw [e] at a
      have := isHeader_inj b a
      refine hd.1 ?_
      have hxe : x = xs[i]'(by omega) := Prod.ext this.1 this.2
      rw [hxe]
      exact List.getElem_mem _

/-- No two headers of a response have the same path, if no file is requested twice. -/
theorem C100_paths (E : Env) (other : Bool) (files : List File) (want : List (List Byte)) (hw : want.Nodup) :
    ((generate E other files want).files.map (·.path)).Nodup := by
  cases hf : (generate E other files want).failed with
  | true => rw [(C100_response E other files want).1 hf]; exact List.nodup_nil
  | false =>
    obtain ⟨fs, h1, h2, h3, h4⟩ := (C100_response E other files want).2 hf
    refine nodup_paths ((fs.flatMap fun f => (parts f).map fun q => (f, q)).map fun x => (x.1.name, x.2)) _ ?_ (by simpa using h3) ?_
    · rw [← h1] at hw
      rw [List.map_flatMap]
      simp only [List.map_map]
      clear h1 h2 h3 h4
      induction fs with
      | nil => exact List.nodup_nil
      | cons f fs ih =>
        rw [List.map_cons, List.nodup_cons] at hw
        rw [List.flatMap_cons, List.nodup_append]
        refine ⟨?_, ih hw.2, ?_⟩
        · have hp : (parts f).Nodup := List.Nodup.sublist List.filter_sublist (by decide)
          exact hp.map _ (fun a b hab e => hab (by simpa using e))
        · intro a ha b hb e
          obtain ⟨q, _, rfl⟩ := List.mem_map.1 ha
          obtain ⟨g, hg, hb⟩ := List.mem_flatMap.1 hb
          obtain ⟨q', _, rfl⟩ := List.mem_map.1 hb
          have e : f.name = g.name := by simpa using congrArg Prod.fst e
          exact hw.1 (by rw [e]; exact List.mem_map.2 ⟨g, hg, rfl⟩)
    · intro i h x hi hx
      rw [List.getElem?_map, Option.map_eq_some_iff] at hx
      obtain ⟨y, hy, rfl⟩ := hx
      exact (h4 i h y.1 y.2 hi hy).2

/-! ## C101: includes -/

/-- The header of an import that a header needs. -/
def counterpart : Part → Part
  | .service => .pb
  | q => q

/-- One header includes another. -/
def IncludesHeader (dir : List Byte) (h h' : Header) : Prop := directive dir h'.path ∈ h.includes

/-- Every header includes headers of its own file and of the files it imports only, and these are in
the response if the files are requested.  Missing: the `.desc.hpp` of a file without messages
(`C101_missing`), and names with a backslash, which becomes `/` in the directive only. -/
theorem C101_includes_partial (E : Env) (other : Bool) (files : List File) (want : List (List Byte))
    (hf : (generate E other files want).failed = false)
    (hb : ∀ f ∈ files, ∀ b ∈ E.dir ++ f.name, b ≠ 0x5c) :
    ∀ h ∈ (generate E other files want).files, ∃ f ∈ files, f.name ∈ want ∧ IsHeader f.name h.part h.path ∧
      ∀ inc ∈ h.includes, ∃ g q path, (g = f ∨ Uses files f g) ∧ IsHeader g.name q path ∧ inc = directive E.dir path ∧
        (g.name ∈ want → (q = .desc → g.messages ≠ []) →
          ∃ h' ∈ (generate E other files want).files, h'.path = path ∧ h'.part = q) := by
  intro h hh
  obtain ⟨A, _⟩ := generate_ok hf
  obtain ⟨f, hm, hw, _, he, hi⟩ := from_request hf hh
  refine ⟨f, hm, hw, hi, ?_⟩
  intro inc hinc
  have hs := header_spec he
  obtain ⟨x, hx, hg⟩ := (mapM_mem hs.2.2.1).1 inc hinc
  have hgr : ∃ g, (g = f ∨ Uses files f g) ∧ g ∈ files ∧ g.name = x.1 ∧ (x.2 = .service → False) := by
    rcases included_cases hx with ⟨hd, hq⟩ | ⟨hn, hr, _⟩
    · obtain ⟨g, hgm, hgn⟩ := A.exist f hm x.1 hd
      refine ⟨g, .inr ⟨hm, hgm, by rw [hgn]; exact hd⟩, hgm, hgn, ?_⟩
      intro h'
      rw [h'] at hq
      split at hq
      · cases hq
      · next hne => exact hne hq.symm
    · refine ⟨f, .inl rfl, hm, hn.symm, ?_⟩
      intro h'
      rw [h'] at hr
      revert hr
      cases h.part <;> decide
  obtain ⟨g, hg1, hgm, hgn, hns⟩ := hgr
  obtain ⟨stem, hst⟩ := stem_of_namespace (A.spaces g hgm)
  have hst' : x.1 = stem ++ b!".proto" := by rw [← hgn]; exact hst
  refine ⟨g, x.2, _, hg1, ⟨stem, hst, rfl⟩, include_directive hg hst' (by rw [← hgn]; exact hb g hgm), ?_⟩
  intro hgw hdesc
  have hp : hasPart g x.2 := by
    cases hq : x.2 with
    | msg => trivial
    | pb => trivial
    | glz => trivial
    | desc => exact hdesc hq
    | service => exact (hns hq).elim
  obtain ⟨h', hh', hp', _, hi'⟩ := in_response hf hgm hgw hp
  refine ⟨h', hh', ?_, hp'⟩
  obtain ⟨stem', h1, h2⟩ := hi'
  have : stem = stem' := List.append_cancel_right (hst.symm.trans h1)
  rw [h2, this]

private theorem isAny_of {f : File} (hd : ∀ m ∈ f.messages, ∀ b ∈ m, b ≠ 0x2e) (h : isAny f = true) :
    f.package = b!"google.protobuf" ∧ f.messages = [b!"Any"] := by
  unfold isAny at h
  split at h
  · next m hm =>
    have hmd := hd m (by simp [hm])
    have e : (if f.package = [] then m else f.package ++ 0x2e :: m) = b!"google.protobuf.Any" := by simpa using h
    split at e
    · exfalso
      exact hmd 0x2e (by rw [e]; decide) rfl
    · have e : f.package ++ 0x2e :: m = b!"google.protobuf" ++ 0x2e :: b!"Any" := e
      have := last_dot e hmd (by decide)
      exact ⟨this.1, by rw [hm, this.2]⟩
  · cases h

/-- Nothing is forgotten: a header includes its counterpart for every import, except that
`hpp_options.proto` counts for `.glz.hpp`, `.desc.hpp` and `.service.hpp` only and that the JSON of
`Any` is not generated; and it includes the header of its own file that it builds on. -/
theorem C101_imports (E : Env) (other : Bool) (files : List File) (want : List (List Byte))
    (hf : (generate E other files want).failed = false)
    (hb : ∀ f ∈ files, ∀ b ∈ E.dir ++ f.name, b ≠ 0x5c)
    (hdot : ∀ f ∈ files, ∀ m ∈ f.messages, ∀ b ∈ m, b ≠ 0x2e) :
    ∀ h ∈ (generate E other files want).files, ∃ f ∈ files, IsHeader f.name h.part h.path ∧
      (∀ g path, Uses files f g → (g.name = b!"hpp_proto/hpp_options.proto" → h.part ≠ .msg ∧ h.part ≠ .pb) →
        ¬ (h.part = .glz ∧ f.package = b!"google.protobuf" ∧ f.messages = [b!"Any"]) →
        IsHeader g.name (counterpart h.part) path → directive E.dir path ∈ h.includes) ∧
      (∀ path, h.part = .pb ∨ h.part = .glz → IsHeader f.name .msg path → directive E.dir path ∈ h.includes) ∧
      (∀ path, h.part = .service → IsHeader f.name .pb path → directive E.dir path ∈ h.includes) := by
  intro h hh
  obtain ⟨f, hm, _, _, he, hi⟩ := from_request hf hh
  have hs := header_spec he
  have key : ∀ g ∈ files, ∀ q path, (g.name, q) ∈ included f h.part → IsHeader g.name q path → directive E.dir path ∈ h.includes := by
    intro g hg q path hin hp
    obtain ⟨inc, hinc, hgen⟩ := (mapM_mem hs.2.2.1).2 _ hin
    obtain ⟨stem, h1, h2⟩ := hp
    rw [h2, ← include_directive hgen h1 (hb g hg)]
    exact hinc
  refine ⟨f, hm, hi, ?_, ?_, ?_⟩
  · intro g path hu ho hany hp
    refine key g hu.2.1 _ path ?_ hp
    have hd := hu.2.2
    cases hq : h.part with
    | msg =>
      refine List.mem_map.2 ⟨g.name, List.mem_filter.2 ⟨hd, ?_⟩, rfl⟩
      have : g.name ≠ hppOptions := fun e => (ho e).1 hq
      simpa using this
    | pb =>
      refine List.mem_cons.2 (.inr (List.mem_map.2 ⟨g.name, List.mem_filter.2 ⟨hd, ?_⟩, rfl⟩))
      have : g.name ≠ hppOptions := fun e => (ho e).2 hq
      simpa using this
    | glz =>
      unfold included
      simp only
      rw [if_neg]
      · exact List.mem_append.2 (.inl (List.mem_map.2 ⟨g.name, hd, rfl⟩))
      · intro ha
        have := isAny_of (hdot f hm) ha
        exact hany ⟨hq, this.1, this.2⟩
    | desc => exact List.mem_map.2 ⟨g.name, hd, rfl⟩
    | service => exact List.mem_append.2 (.inl (List.mem_map.2 ⟨g.name, hd, rfl⟩))
  · intro path hq hp
    refine key f hm _ path ?_ hp
    rcases hq with hq | hq
    · rw [hq]; exact List.mem_cons.2 (.inl rfl)
    · rw [hq]
      unfold included
      simp only
      split
      · simp
      · simp
  · intro path hq hp
    refine key f hm _ path ?_ hp
    rw [hq]
    exact List.mem_append.2 (.inr (by simp))

/-- No header includes itself, directly or through other headers. -/
theorem C101_acyclic (E : Env) (other : Bool) (files : List File) (want : List (List Byte))
    (hf : (generate E other files want).failed = false)
    (hb : ∀ f ∈ files, ∀ b ∈ E.dir ++ f.name, b ≠ 0x5c) :
    ¬ ∃ h, Relation.TransGen
      (fun a b => a ∈ (generate E other files want).files ∧ b ∈ (generate E other files want).files ∧ IncludesHeader E.dir a b) h h := by
  obtain ⟨A, _⟩ := generate_ok hf
  have step : ∀ a b f g, a ∈ (generate E other files want).files → IncludesHeader E.dir a b →
      f ∈ files → header E files f a.part = some a → g ∈ files → IsHeader g.name b.part b.path →
      Uses files f g ∨ (f = g ∧ rank b.part < rank a.part) := by
    intro a b f g _ hinc hfm he hgm hgi
    have hs := header_spec he
    obtain ⟨x, hx, hgen⟩ := (mapM_mem hs.2.2.1).1 _ hinc
    have hxg : ∃ k ∈ files, k.name = x.1 := by
      rcases included_cases hx with ⟨hd, _⟩ | ⟨hn, _⟩
      · exact A.exist f hfm x.1 hd
      · exact ⟨f, hfm, hn.symm⟩
    obtain ⟨k, hk, hkn⟩ := hxg
    obtain ⟨stem, hst⟩ := stem_of_namespace (A.spaces k hk)
    rw [hkn] at hst
    have hdir := include_directive hgen hst (by rw [← hkn]; exact hb k hk)
    have hpath := directive_inj hdir
    have hxi : IsHeader x.1 x.2 b.path := ⟨stem, hst, hpath⟩
    have ⟨e1, e2⟩ := isHeader_inj hxi hgi
    rcases included_cases hx with ⟨hd, _⟩ | ⟨hn, hr, _⟩
    · exact .inl ⟨hfm, hgm, by rw [← e1]; exact hd⟩
    · exact .inr ⟨name_inj A.nodup hfm hgm (by rw [← e1, hn]), by rw [← e2]; exact hr⟩
  rintro ⟨h, hc⟩
  have all : ∀ a b, Relation.TransGen
      (fun a b => a ∈ (generate E other files want).files ∧ b ∈ (generate E other files want).files ∧ IncludesHeader E.dir a b) a b →
      b ∈ (generate E other files want).files ∧
      ∀ f g, f ∈ files → header E files f a.part = some a → g ∈ files → IsHeader g.name b.part b.path →
        Relation.TransGen (Uses files) f g ∨ (f = g ∧ rank b.part < rank a.part) := by
    intro a b hab
    induction hab with
    | single h =>
      refine ⟨h.2.1, ?_⟩
      intro f g h1 h2 h3 h4
      rcases step _ _ f g h.1 h.2.2 h1 h2 h3 h4 with h | h
      · exact .inl (.single h)
      · exact .inr h
    | @tail b c _ h ih =>
      refine ⟨h.2.1, ?_⟩
      intro f g h1 h2 h3 h4
      obtain ⟨m, hm, _, _, hme, hmi⟩ := from_request hf h.1
      have hs := step b c m g h.1 h.2.2 hm hme h3 h4
      rcases ih.2 f m h1 h2 hm hmi with i | ⟨i1, i2⟩
      · rcases hs with s | ⟨s1, s2⟩
        · exact .inl (.tail i s)
        · subst s1; exact .inl i
      · subst i1
        rcases hs with s | ⟨s1, s2⟩
        · exact .inl (.single s)
        · exact .inr ⟨s1, by omega⟩
  have hmem := (all h h hc).1
  obtain ⟨f, hm, _, _, he, hi⟩ := from_request hf hmem
  rcases (all h h hc).2 f f hm he hm hi with h | ⟨_, h⟩
  · exact no_cycle A f h
  · omega

/-! ## C102: descriptor sets -/

/-- The header `.desc.hpp` of a file contains the descriptor of the file, byte for byte; its
descriptor set names the descriptors of the file and of all files it imports, directly or not, and
of no others, the file itself last; and each once, if all these files have messages. -/
theorem C102_set_partial (E : Env) (other : Bool) (files : List File) (want : List (List Byte))
    (hf : (generate E other files want).failed = false) :
    ∀ h ∈ (generate E other files want).files, h.part = .desc →
      ∃ f ∈ files, IsHeader f.name .desc h.path ∧
        (∀ rest, Spec.Cpp.stringLiteral (Spec.Cpp.source (h.literal ++ rest)) = some (E.bytes f.name, Spec.Cpp.source rest)) ∧
        (∀ v, v ∈ h.set ↔ ∃ g, Reaches files f g ∧ v = descriptorName g) ∧
        h.set.getLast? = some (descriptorName f) ∧
        ((∀ g, Reaches files f g → g.messages ≠ []) →
          h.set.Nodup ∧ ∀ g g', Reaches files f g → Reaches files f g' → descriptorName g = descriptorName g' → g = g') := by
  intro h hh hq
  obtain ⟨A, _⟩ := generate_ok hf
  obtain ⟨f, hm, _, _, he, hi⟩ := from_request hf hh
  rw [hq] at hi he
  obtain ⟨hl, hset⟩ := (header_spec he).2.2.2.1 rfl
  refine ⟨f, hm, hi, ?_, ?_, ?_, ?_⟩
  · intro rest
    rw [hl]
    exact C44_string_literals _ _
  · rw [hset]; exact set_mem A hm
  · rw [hset]; exact set_last files hm
  · intro hms
    refine ⟨by rw [hset]; exact set_nodup A hm hms, ?_⟩
    intro g g' hg hg' e
    exact descriptorName_inj A (reaches_mem hm hg) (reaches_mem hm hg') (hms g hg) (hms g' hg') e

/-- The variable that the set names. -/
theorem C102_variable : descriptorName { name := b!"a/b.proto" } = b!"hpp_proto::file_descriptors::a::b_proto::file_descriptor_" := by
  decide +kernel

/-! ## C103: options -/

/-- Every parameter is a list of settings. -/
theorem C103_any_text (t : List Byte) : ∃ ss : List Setting, (∀ s ∈ ss, s.ok) ∧ parameter ss = t :=
  parameter_of t.length t (Nat.le_refl _)

/-- The options are those the settings ask for; the parameter is refused exactly when some
`namespace_prefix` is no dotted name that C++ can use. -/
theorem C103_options (ss : List Setting) (hok : ∀ s ∈ ss, s.ok) :
    (parseOptions (parameter ss) = none ↔ ∃ v ∈ valuesOf b!"namespace_prefix" ss, Lex.fromDotted v = none) ∧
    ∀ o, parseOptions (parameter ss) = some o → Asked ss o :=
  parseOptions_applied hok

/-! ## C104: services -/

/-- The header `.service.hpp` of a file has the services that have methods, in order, and for each
method in order: its path as gRPC calls it, its kind, its number and the C++ types of its request and
response. -/
theorem C104_methods (E : Env) (other : Bool) (files : List File) (want : List (List Byte))
    (hf : (generate E other files want).failed = false) :
    ∀ h ∈ (generate E other files want).files, h.part = .service →
      ∃ f ∈ files, IsHeader f.name .service h.path ∧
        h.services.length = (f.services.filter (·.methods ≠ [])).length ∧
        ∀ (i : Nat) (s : Service) (x : List Byte × List MethodStruct),
          (f.services.filter (·.methods ≠ []))[i]? = some s → h.services[i]? = some x →
          x.1 = s.name ∧ x.2.length = s.methods.length ∧
          ∀ (k : Nat) (m : Method) (y : MethodStruct), s.methods[k]? = some m → x.2[k]? = some y →
            y.name = m.name ∧ y.ordinal = k ∧
            y.clientStreaming = m.clientStreaming ∧ y.serverStreaming = m.serverStreaming ∧
            y.rpcType = kindOf m.clientStreaming m.serverStreaming ∧
            (∀ rest, Spec.Cpp.stringLiteral (Spec.Cpp.source (y.path ++ rest)) = some (callPath f s m, Spec.Cpp.source rest)) ∧
            (∀ n, m.input = b!"." ++ n → E.types n = some y.request) ∧
            (∀ n, m.output = b!"." ++ n → E.types n = some y.response) := by
  intro h hh hq
  obtain ⟨f, hm, _, _, he, hi⟩ := from_request hf hh
  rw [hq] at hi he
  have hss := (header_spec he).2.2.2.2 rfl
  have hsp := serviceStructs_spec hss
  refine ⟨f, hm, hi, hsp.1, ?_⟩
  intro i s x hs hx
  obtain ⟨hn, hms⟩ := hsp.2 i s x hs hx
  have hmp := methodStructs_spec hms
  refine ⟨hn, hmp.1, ?_⟩
  intro k m y hmk hyk
  have hy := hmp.2 k m y hmk hyk
  unfold methodStruct at hy
  cases h1 : resolvedType E.types m.input with
  | none => simp [h1] at hy
  | some a =>
    cases h2 : resolvedType E.types m.output with
    | none => simp [h1, h2] at hy
    | some b =>
      simp only [h1, h2, Option.bind_eq_bind, Option.bind_some, Option.some.injEq] at hy
      subst hy
      refine ⟨rfl, by simp, rfl, rfl, ?_, ?_, ?_, ?_⟩
      · cases m.clientStreaming <;> cases m.serverStreaming <;> rfl
      · intro rest
        rw [C44_string_literals]
        congr 2
        unfold serviceName callPath
        by_cases hp : f.package = []
        · rw [if_pos hp, if_pos hp]; simp
        · rw [if_neg hp, if_neg hp]; simp
      · intro n hn
        rw [← h1]
        unfold resolvedType
        rw [hn]
        rfl
      · intro n hn
        rw [← h2]
        unfold resolvedType
        rw [hn]
        rfl

private theorem last_slash {stem stem' ext ext' : List Byte} (h : stem ++ 0x2f :: ext = stem' ++ 0x2f :: ext')
    (h1 : ∀ b ∈ ext, b ≠ 0x2f) (h2 : ∀ b ∈ ext', b ≠ 0x2f) : stem = stem' ∧ ext = ext' := by
  induction stem generalizing stem' with
  | nil =>
    cases stem' with
    | nil => simpa using h
    | cons a s =>
      exfalso
      simp only [List.nil_append, List.cons_append, List.cons.injEq] at h
      exact h1 0x2f (by rw [h.2]; simp) rfl
  | cons a s ih =>
    cases stem' with
    | nil =>
      exfalso
      simp only [List.nil_append, List.cons_append, List.cons.injEq] at h
      exact h2 0x2f (by rw [← h.2]; simp) rfl
    | cons a' s' =>
      simp only [List.cons_append, List.cons.injEq] at h
      have := ih h.2
      exact ⟨by rw [h.1, this.1], this.2⟩

/-- Different methods have different paths: the path determines package, service and method. -/
theorem C104_paths (f f' : File) (s s' : Service) (m m' : Method)
    (hs : ∀ b ∈ s.name, b ≠ 0x2e) (hs' : ∀ b ∈ s'.name, b ≠ 0x2e)
    (hm : ∀ b ∈ m.name, b ≠ 0x2f) (hm' : ∀ b ∈ m'.name, b ≠ 0x2f)
    (e : callPath f s m = callPath f' s' m') :
    f.package = f'.package ∧ s.name = s'.name ∧ m.name = m'.name := by
  unfold callPath at e
  simp only [List.append_assoc] at e
  have e := List.append_cancel_left e
  simp only [← List.append_assoc] at e
  have e : ((if f.package = [] then [] else f.package ++ b!".") ++ s.name) ++ 0x2f :: m.name =
      ((if f'.package = [] then [] else f'.package ++ b!".") ++ s'.name) ++ 0x2f :: m'.name := by
    simpa using e
  obtain ⟨e1, e2⟩ := last_slash e hm hm'
  by_cases hp : f.package = [] <;> by_cases hp' : f'.package = []
  · simp only [hp, hp', if_true, List.nil_append] at e1
    exact ⟨by rw [hp, hp'], e1, e2⟩
  · exfalso
    simp only [hp, hp', if_true, if_false, List.nil_append] at e1
    exact hs 0x2e (by rw [e1]; simp) rfl
  · exfalso
    simp only [hp, hp', if_true, if_false, List.nil_append] at e1
    exact hs' 0x2e (by rw [← e1]; simp) rfl
  · simp only [hp, hp', if_false] at e1
    have e1 : f.package ++ 0x2e :: s.name = f'.package ++ 0x2e :: s'.name := by simpa using e1
    have := last_dot e1 hs hs'
    exact ⟨this.1, this.2, e2⟩

/-! ## Examples -/

private def sampleEnv : Env where
  dir := b!"gen"
  types := fun n => if n = b!"p.M" then some b!"::p::M" else none
  bytes := fun n => n
  refused := fun _ _ => false

private def sampleA : File := { name := b!"a.proto", deps := [b!"d/b.proto"], package := b!"p", messages := [b!"M"],
                                services := [⟨b!"S", [⟨b!"Get", b!".p.M", b!".p.M", false, true⟩]⟩] }
private def sampleB : File := { name := b!"d/b.proto", package := b!"p", messages := [b!"N"] }
private def sampleE : File := { name := b!"e.proto", package := b!"p" }

/-- Two files, one with a service, are accepted; the response has the nine headers. -/
example : (generate sampleEnv true [sampleB, sampleA] [b!"a.proto", b!"d/b.proto"]).failed = false := by decide +kernel

example : (generate sampleEnv true [sampleB, sampleA] [b!"a.proto", b!"d/b.proto"]).files.map (·.path) =
    [b!"a.msg.hpp", b!"a.pb.hpp", b!"a.glz.hpp", b!"a.desc.hpp", b!"a.service.hpp",
     b!"d/b.msg.hpp", b!"d/b.pb.hpp", b!"d/b.glz.hpp", b!"d/b.desc.hpp"] := by decide +kernel

example : ∀ f ∈ [sampleB, sampleA], ∀ b ∈ sampleEnv.dir ++ f.name, b ≠ 0x5c := by decide +kernel
example : ∀ f ∈ [sampleB, sampleA], ∀ m ∈ f.messages, ∀ b ∈ m, b ≠ 0x2e := by decide +kernel

example : ∀ g, Reaches [sampleB, sampleA] sampleA g → g.messages ≠ [] := by
  intro g hg
  have := reaches_mem (files := [sampleB, sampleA]) (by simp) hg
  simp only [List.mem_cons, List.not_mem_nil, or_false] at this
  rcases this with rfl | rfl <;> decide +kernel

/-- A request for options in use. -/
example : ∃ ss : List Setting, (∀ s ∈ ss, s.ok) ∧
    parameter ss = b!"directory_prefix=gen,namespace_prefix=a.b,preserve_proto_field_names,proto2_explicit_presence=.p" ∧
    ∃ o, parseOptions (parameter ss) = some o ∧ o.directory = b!"gen" ∧ o.nsPrefix = some b!"a::b" ∧ o.preserve = true ∧
      o.explicit = [b!".p"] := by
  have hok : ∀ s ∈ [(⟨b!"directory_prefix", some b!"gen"⟩ : Setting), ⟨b!"namespace_prefix", some b!"a.b"⟩,
      ⟨b!"preserve_proto_field_names", none⟩, ⟨b!"proto2_explicit_presence", some b!".p"⟩], s.ok := by
    intro s hs
    simp only [List.mem_cons, List.not_mem_nil, or_false] at hs
    rcases hs with rfl | rfl | rfl | rfl <;> refine ⟨by decide, ?_⟩ <;> intro v hv <;> cases hv <;> decide
  refine ⟨_, hok, by rfl, ?_⟩
  have h := C103_options _ hok
  cases hp : parseOptions (parameter [(⟨b!"directory_prefix", some b!"gen"⟩ : Setting), ⟨b!"namespace_prefix", some b!"a.b"⟩,
      ⟨b!"preserve_proto_field_names", none⟩, ⟨b!"proto2_explicit_presence", some b!".p"⟩]) with
  | none =>
    obtain ⟨v, hv, e⟩ := h.1.1 hp
    have : v = b!"a.b" := by simpa [valuesOf, Setting.given] using hv
    subst this
    exact absurd e (by decide +kernel)
  | some o =>
    obtain ⟨h1, h2, h3, h4, _⟩ := h.2 o hp
    refine ⟨o, rfl, h1.trans (by decide +kernel), h2.trans (by decide +kernel), h4.2 ⟨[], by decide +kernel, .inr rfl⟩, h3.trans (by decide +kernel)⟩

/-! ## What breaks C101 and C102 -/

/-- The `.desc.hpp` of a file that imports a file without messages includes a header that is never
generated, and its descriptor set names a descriptor that no header declares. -/
theorem C101_missing : ∃ (E : Env) (files : List File) (want : List (List Byte)) (f g : File),
    (generate E true files want).failed = false ∧ Uses files f g ∧ want = files.map (·.name) ∧
    (∃ h ∈ (generate E true files want).files, h.path = b!"a.desc.hpp" ∧
      directive E.dir b!"e.desc.hpp" ∈ h.includes ∧ descriptorName g ∈ h.set) ∧
    ∀ h ∈ (generate E true files want).files, h.path ≠ b!"e.desc.hpp" ∧ (h.part = .desc → h.path = b!"a.desc.hpp") := by
  refine ⟨sampleEnv, [sampleE, { sampleA with deps := [b!"e.proto"] }], [b!"e.proto", b!"a.proto"],
    { sampleA with deps := [b!"e.proto"] }, sampleE, by decide +kernel, ⟨by decide +kernel, by decide +kernel, by decide +kernel⟩,
    by decide +kernel, by decide +kernel, by decide +kernel⟩

end HppProto.Props
