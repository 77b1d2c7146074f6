import Verif.Spec.Plugin
import Verif.Props.Lexical
import Verif.Props.FileGraph

/-!
# Proofs about the answer of `protoc-gen-hpp`
-/

namespace HppProto.Plugin
open Spec.Plugin

/-! ## Options -/

theorem takeWhile_all {p : Byte → Bool} : ∀ {s rest : List Byte}, (∀ b ∈ s, p b = true) →
    (∀ b, rest.head? = some b → p b = false) → (s ++ rest).takeWhile p = s ∧ (s ++ rest).dropWhile p = rest
  | [], rest, _, hr => by
    cases rest with
    | nil => exact ⟨rfl, rfl⟩
    | cons b r =>
      have := hr b rfl
      simp [List.takeWhile_cons, List.dropWhile_cons, this]
  | a :: s, rest, hs, hr => by
    have ha := hs a (by simp)
    have := takeWhile_all (s := s) (rest := rest) (fun b hb => hs b (by simp [hb])) hr
    simp only [List.cons_append, List.takeWhile_cons, List.dropWhile_cons, ha, if_true]
    exact ⟨by rw [this.1], this.2⟩

theorem splitAt_piece {t rest : List Byte} (ht : ∀ b ∈ t, b ≠ 0x2c) :
    splitAt 0x2c (t ++ 0x2c :: rest) = t :: splitAt 0x2c rest := by
  have h := takeWhile_all (p := fun b => b != 0x2c) (s := t) (rest := 0x2c :: rest)
    (fun b hb => by simpa using ht b hb) (fun b hb => by cases hb; rfl)
  have hne : ∃ c l, t ++ 0x2c :: rest = c :: l := by
    cases t with
    | nil => exact ⟨_, _, rfl⟩
    | cons c l => exact ⟨_, _, rfl⟩
  obtain ⟨c, l, e⟩ := hne
  rw [e] at h ⊢
  rw [splitAt]
  split
  · next h' => rw [h.2] at h'; cases h'
  · next b r h' =>
    rw [h.2] at h'
    cases h'
    rw [h.1]

theorem splitAt_last {t : List Byte} (ht : ∀ b ∈ t, b ≠ 0x2c) (hne : t ≠ []) : splitAt 0x2c t = [t] := by
  have h := takeWhile_all (p := fun b => b != 0x2c) (s := t) (rest := [])
    (fun b hb => by simpa using ht b hb) (fun b hb => by cases hb)
  rw [List.append_nil] at h
  cases t with
  | nil => exact absurd rfl hne
  | cons c l =>
    rw [splitAt]
    split
    · rw [h.1]
    · next b r h' => rw [h.2] at h'; cases h'

theorem text_no_comma {s : Setting} (h : s.ok) : ∀ b ∈ s.text, b ≠ 0x2c := by
  intro b hb
  unfold Setting.text at hb
  split at hb
  · exact (h.1 b hb).1
  · next v hv =>
    rcases List.mem_append.1 hb with hb | hb
    · rcases List.mem_append.1 hb with hb | hb
      · exact (h.1 b hb).1
      · have : b = 0x3d := by simpa using hb
        rw [this]; decide
    · exact h.2 v hv b hb

theorem applyOption_empty (st : Options × Bool) : applyOption st [] = st := by
  unfold applyOption keyValue
  simp

theorem fold_parameter : ∀ (ss : List Setting), (∀ s ∈ ss, s.ok) → ∀ st : Options × Bool,
    (splitAt 0x2c (parameter ss)).foldl applyOption st = ss.foldl (fun st s => applyOption st s.text) st
  | [], _, st => by simp [parameter, splitAt]
  | [s], h, st => by
    have hc := text_no_comma (h s (by simp))
    simp only [parameter]
    by_cases he : s.text = []
    · rw [he]
      simp [splitAt, he, applyOption_empty]
    · rw [splitAt_last hc he]
      rfl
  | s :: s' :: ss, h, st => by
    have hc := text_no_comma (h s (by simp))
    have e : parameter (s :: s' :: ss) = s.text ++ 0x2c :: parameter (s' :: ss) := by
      simp [parameter]
    rw [e, splitAt_piece hc, List.foldl_cons, fold_parameter (s' :: ss) (fun x hx => h x (by simp [hx]))]
    rfl

theorem keyValue_text {s : Setting} (h : s.ok) : keyValue s.text = (s.key, s.given) := by
  unfold keyValue Setting.text Setting.given
  have hk : ∀ b ∈ s.key, (b != 0x3d) = true := fun b hb => by simpa using (h.1 b hb).2
  cases hv : s.value with
  | none =>
    have := takeWhile_all (p := fun b => b != 0x3d) (rest := []) hk (fun b hb => by cases hb)
    rw [List.append_nil] at this
    show (s.key.takeWhile (fun b => b != 0x3d), (s.key.dropWhile (fun b => b != 0x3d)).drop 1) = _
    rw [this.1, this.2]
    rfl
  | some v =>
    have := takeWhile_all (p := fun b => b != 0x3d) (rest := 0x3d :: v) hk (fun b hb => by cases hb; rfl)
    simp only [List.append_assoc]
    show ((s.key ++ 0x3d :: v).takeWhile _, ((s.key ++ 0x3d :: v).dropWhile _).drop 1) = _
    rw [this.1, this.2]
    rfl

theorem valuesOf_append (key : List Byte) (ss : List Setting) (s : Setting) :
    valuesOf key (ss ++ [s]) = valuesOf key ss ++ (if s.key = key then [s.given] else []) := by
  unfold valuesOf
  rw [List.filter_append, List.map_append]
  congr 1
  by_cases h : s.key = key <;> simp [h]

/-- What holds after each option. -/
structure Applied (ss : List Setting) (o : Options) (e : Bool) : Prop where
  directory : o.directory = (valuesOf b!"directory_prefix" ss).getLast?.getD []
  nsPrefix : e = false → o.nsPrefix = (valuesOf b!"namespace_prefix" ss).getLast?.bind Lex.fromDotted
  error : e = true ↔ ∃ v ∈ valuesOf b!"namespace_prefix" ss, Lex.fromDotted v = none
  explicit : o.explicit = valuesOf b!"proto2_explicit_presence" ss
  preserve : o.preserve = true ↔ ∃ v, (valuesOf b!"preserve_proto_field_names" ss).getLast? = some v ∧ (v = b!"true" ∨ v = [])
  exported : o.exported = (valuesOf b!"export_request" ss).getLast?

theorem fold_applied (ss : List Setting) : (∀ s ∈ ss, s.ok) →
    Applied ss (ss.foldl (fun st s => applyOption st s.text) ({}, false)).1
      (ss.foldl (fun st s => applyOption st s.text) ({}, false)).2 := by
  induction hn : ss.length generalizing ss with
  | zero =>
    intro _
    have : ss = [] := List.length_eq_zero_iff.1 hn
    subst this
    refine ⟨rfl, fun _ => rfl, ?_, rfl, ?_, rfl⟩
    · simp [valuesOf]
    · simp [valuesOf]
  | succ n ih =>
    intro hok
    have hne : ss ≠ [] := by intro h; subst h; cases hn
    obtain ⟨l, s, rfl⟩ : ∃ l s, ss = l ++ [s] := ⟨ss.dropLast, ss.getLast hne, (List.dropLast_concat_getLast hne).symm⟩
    have I := ih l (by simpa using hn) (fun x hx => hok x (List.mem_append.2 (.inl hx)))
    rw [List.foldl_append, List.foldl_cons, List.foldl_nil]
    generalize List.foldl (fun st s => applyOption st s.text) ({}, false) l = st at I
    obtain ⟨o, e⟩ := st
    have hs := hok s (by simp)
    unfold applyOption
    rw [keyValue_text hs]
    simp only
    have other : ∀ key, s.key ≠ key → valuesOf key (l ++ [s]) = valuesOf key l := by
      intro key hk
      rw [valuesOf_append, if_neg hk, List.append_nil]
    have same : ∀ key, s.key = key → valuesOf key (l ++ [s]) = valuesOf key l ++ [s.given] := by
      intro key hk
      rw [valuesOf_append, if_pos hk]
    split
    · next hk =>
      refine ⟨?_, ?_, ?_, ?_, ?_, ?_⟩
      · rw [same _ hk]; simp
      · rw [other _ (by rw [hk]; decide)]; exact I.nsPrefix
      · rw [other _ (by rw [hk]; decide)]; exact I.error
      · rw [other _ (by rw [hk]; decide)]; exact I.explicit
      · rw [other _ (by rw [hk]; decide)]; exact I.preserve
      · rw [other _ (by rw [hk]; decide)]; exact I.exported
    split
    · next hk =>
      cases hf : Lex.fromDotted s.given with
      | none =>
        refine ⟨?_, ?_, ?_, ?_, ?_, ?_⟩
        · rw [other _ (by rw [hk]; decide)]; exact I.directory
        · intro h; cases h
        · rw [same _ hk]
          exact ⟨fun _ => ⟨s.given, by simp, hf⟩, fun _ => rfl⟩
        · rw [other _ (by rw [hk]; decide)]; exact I.explicit
        · rw [other _ (by rw [hk]; decide)]; exact I.preserve
        · rw [other _ (by rw [hk]; decide)]; exact I.exported
      | some ns =>
        refine ⟨?_, ?_, ?_, ?_, ?_, ?_⟩
        · rw [other _ (by rw [hk]; decide)]; exact I.directory
        · intro _
          rw [same _ hk]
          simp [hf]
        · rw [same _ hk]
          refine I.error.trans ⟨?_, ?_⟩
          · rintro ⟨v, hv, h⟩
            exact ⟨v, by simp [hv], h⟩
          · rintro ⟨v, hv, h⟩
            rcases List.mem_append.1 hv with hv | hv
            · exact ⟨v, hv, h⟩
            · have : v = s.given := by simpa using hv
              rw [this, hf] at h
              cases h
        · rw [other _ (by rw [hk]; decide)]; exact I.explicit
        · rw [other _ (by rw [hk]; decide)]; exact I.preserve
        · rw [other _ (by rw [hk]; decide)]; exact I.exported
    split
    · next hk =>
      refine ⟨?_, ?_, ?_, ?_, ?_, ?_⟩
      · rw [other _ (by rw [hk]; decide)]; exact I.directory
      · rw [other _ (by rw [hk]; decide)]; exact I.nsPrefix
      · rw [other _ (by rw [hk]; decide)]; exact I.error
      · rw [same _ hk]; exact congrArg (· ++ [s.given]) I.explicit
      · rw [other _ (by rw [hk]; decide)]; exact I.preserve
      · rw [other _ (by rw [hk]; decide)]; exact I.exported
    split
    · next hk =>
      refine ⟨?_, ?_, ?_, ?_, ?_, ?_⟩
      · rw [other _ (by rw [hk]; decide)]; exact I.directory
      · rw [other _ (by rw [hk]; decide)]; exact I.nsPrefix
      · rw [other _ (by rw [hk]; decide)]; exact I.error
      · rw [other _ (by rw [hk]; decide)]; exact I.explicit
      · rw [same _ hk]; simp
      · rw [other _ (by rw [hk]; decide)]; exact I.exported
    split
    · next hk =>
      refine ⟨?_, ?_, ?_, ?_, ?_, ?_⟩
      · rw [other _ (by rw [hk]; decide)]; exact I.directory
      · rw [other _ (by rw [hk]; decide)]; exact I.nsPrefix
      · rw [other _ (by rw [hk]; decide)]; exact I.error
      · rw [other _ (by rw [hk]; decide)]; exact I.explicit
      · rw [other _ (by rw [hk]; decide)]; exact I.preserve
      · rw [same _ hk]; simp
    · next k1 k2 k3 k4 k5 =>
      refine ⟨?_, ?_, ?_, ?_, ?_, ?_⟩
      · rw [other _ k1]; exact I.directory
      · rw [other _ k2]; exact I.nsPrefix
      · rw [other _ k2]; exact I.error
      · rw [other _ k3]; exact I.explicit
      · rw [other _ k4]; exact I.preserve
      · rw [other _ k5]; exact I.exported

theorem parseOptions_applied {ss : List Setting} (hok : ∀ s ∈ ss, s.ok) :
    (parseOptions (parameter ss) = none ↔ ∃ v ∈ valuesOf b!"namespace_prefix" ss, Lex.fromDotted v = none) ∧
    ∀ o, parseOptions (parameter ss) = some o → Asked ss o := by
  have I := fold_applied ss hok
  unfold parseOptions
  rw [fold_parameter ss hok]
  generalize List.foldl (fun st s => applyOption st s.text) ({}, false) ss = st at I
  obtain ⟨o, e⟩ := st
  cases e with
  | true => exact ⟨⟨fun _ => I.error.1 rfl, fun _ => rfl⟩, fun o h => by cases h⟩
  | false =>
    refine ⟨⟨fun h => (by cases h), fun h => (by cases I.error.2 h)⟩, ?_⟩
    intro o' h
    simp only [Option.some.injEq] at h
    have hx := I.explicit
    simp only at hx
    subst h
    by_cases hx' : o.explicit = []
    · rw [if_pos hx']
      refine ⟨I.directory, I.nsPrefix rfl, ?_, I.preserve, I.exported⟩
      rw [if_pos (by rw [← hx]; exact hx')]
    · rw [if_neg hx']
      refine ⟨I.directory, I.nsPrefix rfl, ?_, I.preserve, I.exported⟩
      rw [if_neg (by rw [← hx]; exact hx')]
      exact hx

/-- Every text is a list of settings. -/
theorem parameter_of : ∀ (n : Nat) (t : List Byte), t.length ≤ n → ∃ ss : List Setting, (∀ s ∈ ss, s.ok) ∧ parameter ss = t := by
  have one : ∀ t : List Byte, (∀ b ∈ t, b ≠ 0x2c) → ∃ s : Setting, s.ok ∧ s.text = t := by
    intro t ht
    have hsplit : t.takeWhile (· != 0x3d) ++ t.dropWhile (· != 0x3d) = t := List.takeWhile_append_dropWhile
    have hkey : ∀ b ∈ t.takeWhile (· != 0x3d), b ≠ 0x2c ∧ b ≠ 0x3d := by
      intro b hb
      refine ⟨ht b (List.takeWhile_subset _ hb), ?_⟩
      have := List.all_takeWhile (l := t) (p := (· != 0x3d))
      simpa using List.all_eq_true.1 this b hb
    cases hd : t.dropWhile (· != 0x3d) with
    | nil =>
      rw [hd, List.append_nil] at hsplit
      refine ⟨⟨t, none⟩, ⟨by rw [← hsplit]; exact hkey, fun v hv => by cases hv⟩, rfl⟩
    | cons c v =>
      rw [hd] at hsplit
      have hc : c = 0x3d := by
        have := List.head?_dropWhile_not (fun b : Byte => b != 0x3d) t
        rw [hd] at this
        simpa using this
      subst hc
      refine ⟨⟨t.takeWhile (· != 0x3d), some v⟩, ⟨hkey, ?_⟩, ?_⟩
      · intro w hw b hb
        cases hw
        exact ht b (by rw [← hsplit]; simp [hb])
      · show t.takeWhile (· != 0x3d) ++ [0x3d] ++ v = t
        rw [List.append_assoc]
        exact hsplit
  intro n
  induction n with
  | zero =>
    intro t ht
    have : t = [] := List.length_eq_zero_iff.1 (by omega)
    subst this
    exact ⟨[], by simp, rfl⟩
  | succ n ih =>
    intro t ht
    have hsplit : t.takeWhile (· != 0x2c) ++ t.dropWhile (· != 0x2c) = t := List.takeWhile_append_dropWhile
    have hpiece : ∀ b ∈ t.takeWhile (· != 0x2c), b ≠ 0x2c := by
      intro b hb
      have := List.all_takeWhile (l := t) (p := (· != 0x2c))
      simpa using List.all_eq_true.1 this b hb
    obtain ⟨s, hs, hst⟩ := one _ hpiece
    cases hd : t.dropWhile (· != 0x2c) with
    | nil =>
      rw [hd, List.append_nil] at hsplit
      exact ⟨[s], by simpa using hs, by show s.text = t; rw [hst, hsplit]⟩
    | cons c v =>
      have hc : c = 0x2c := by
        have := List.head?_dropWhile_not (fun b : Byte => b != 0x2c) t
        rw [hd] at this
        simpa using this
      subst hc
      rw [hd] at hsplit
      have hl := congrArg List.length hsplit
      simp only [List.length_append, List.length_cons] at hl
      obtain ⟨ss, hss, he⟩ := ih v (by omega)
      cases ss with
      | nil =>
        refine ⟨[s, ⟨[], none⟩], ?_, ?_⟩
        · intro x hx
          simp only [List.mem_cons, List.not_mem_nil, or_false] at hx
          rcases hx with rfl | rfl
          · exact hs
          · exact ⟨by simp, fun v hv => by cases hv⟩
        · rw [← hsplit, ← hst, ← he]
          simp [parameter, Setting.text]
      | cons s' ss =>
        refine ⟨s :: s' :: ss, ?_, ?_⟩
        · intro x hx
          rcases List.mem_cons.1 hx with rfl | hx
          · exact hs
          · exact hss x hx
        · rw [← hsplit, ← hst, ← he]
          simp [parameter]

/-! ## Lists -/

theorem mapM_at {α β : Type} {f : α → Option β} {l : List α} {r : List β} (h : l.mapM f = some r) :
    r.length = l.length ∧ ∀ i : Nat, ∀ a b, l[i]? = some a → r[i]? = some b → f a = some b := by
  have h := (Lex.mapM_some f l r).1 h
  refine ⟨by simpa using (congrArg List.length h).symm, ?_⟩
  intro i a b ha hb
  have := congrArg (fun l => l[i]?) h
  simp only [List.getElem?_map, ha, hb, Option.map_some, Option.some.injEq] at this
  exact this

theorem mapM_mem {α β : Type} {f : α → Option β} {l : List α} {r : List β} (h : l.mapM f = some r) :
    (∀ b ∈ r, ∃ a ∈ l, f a = some b) ∧ ∀ a ∈ l, ∃ b ∈ r, f a = some b := by
  have h := (Lex.mapM_some f l r).1 h
  constructor
  · intro b hb
    have : some b ∈ l.map f := by rw [h]; exact List.mem_map.2 ⟨b, hb, rfl⟩
    obtain ⟨a, ha, e⟩ := List.mem_map.1 this
    exact ⟨a, ha, e⟩
  · intro a ha
    have : f a ∈ r.map some := by rw [← h]; exact List.mem_map.2 ⟨a, ha, rfl⟩
    obtain ⟨b, hb, e⟩ := List.mem_map.1 this
    exact ⟨b, hb, e.symm⟩

theorem mapM_map {α β : Type} {f : α → Option β} {l : List α} {r : List β} (h : l.mapM f = some r) :
    l.map f = r.map some := (Lex.mapM_some f l r).1 h

/-! ## Names of headers -/

theorem suffix_word (part : Part) : part.suffix = word part ++ b!".hpp" := by cases part <;> rfl

theorem endsWith_iff (suf name : List Byte) : Lex.endsWith suf name = true ↔ ∃ stem, name = stem ++ suf := by
  unfold Lex.endsWith
  rw [List.isPrefixOf_iff_prefix]
  constructor
  · rintro ⟨r, h⟩
    refine ⟨r.reverse, ?_⟩
    have := congrArg List.reverse h
    simpa using this.symm
  · rintro ⟨stem, rfl⟩
    exact ⟨stem.reverse, by simp⟩

theorem stem_of_namespace {f : File} (h : (namespaceOf f).isSome) : ∃ stem, f.name = stem ++ b!".proto" := by
  unfold namespaceOf Lex.fileNamespace at h
  split at h
  · cases h
  · next hn =>
    have : Lex.endsWith b!".proto" f.name = true := by
      cases he : Lex.endsWith b!".proto" f.name with
      | true => rfl
      | false => exact absurd (.inr (.inr (.inr (by simp only [he]; rfl)))) hn
    exact (endsWith_iff _ _).1 this

theorem outName_isHeader {name stem : List Byte} (part : Part) (h : name = stem ++ b!".proto") :
    outName name part = stem ++ b!"." ++ word part ++ b!".hpp" := by
  unfold outName
  subst h
  have hl : (stem ++ b!".proto").length = stem.length + 6 := by simp [String.toByteArray]
  rw [if_neg (by omega), hl, show stem.length + 6 - 5 = stem.length + 1 from by omega, suffix_word]
  rw [List.take_append, List.take_of_length_le (by omega)]
  rw [show stem.length + 1 - stem.length = 1 from by omega]
  show stem ++ [0x2e] ++ (word part ++ b!".hpp") = _
  simp only [List.append_assoc]
  rfl

theorem isHeader_inj {n n' p : List Byte} {q q' : Part} (h : IsHeader n q p) (h' : IsHeader n' q' p) : n = n' ∧ q = q' := by
  obtain ⟨s, rfl, rfl⟩ := h
  obtain ⟨s', rfl, e⟩ := h'
  simp only [List.append_assoc] at e
  have e := congrArg List.reverse e
  cases q <;> cases q' <;> simp [word, List.reverse_append] at e <;> simp_all


end HppProto.Plugin
