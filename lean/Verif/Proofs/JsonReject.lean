import Verif.Proofs.JsonLevel

/-! # Keys that are not those of a field -/

namespace HppProto.Json
open HppProto

section
variable {T : JTypes} {D : JDesc} (hD : D.Ok T) {m : DynMsg} {same : Nat → DynMsg → DynMsg → Prop}
  {G : Glaze} {utf8 : List Byte → Bool} (L : G.Lawful) {form : Nat → DynMsg → JTree → Prop} {r : JReader}
  (hr : Reads T form same r) (hnull : NullIsValue T form same)

theorem fieldOf_none {key : List Byte} (h : ∀ f ∈ D.fields, f.jsonName ≠ key ∧ f.name ≠ key) : D.fieldOf key = none := by
  unfold JDesc.fieldOf
  rw [List.find?_eq_none.2 (fun f hf => by simpa using (h f hf).1)]
  exact List.find?_eq_none.2 (fun f hf => by simpa using (h f hf).2)

include L in
theorem unknown_first {key v c tail : List Byte} (hkey : Spec.unescape key = some v) (hc : Ws c)
    (unknown : ∀ f ∈ D.fields, f.jsonName ≠ key ∧ f.name ≠ key) (m' : DynMsg) (fuel : Nat) :
    (do
      let (key, s) ← G.readView (0x22 :: key ++ 0x22 :: (c ++ 0x3a :: tail))
      let s ← readColon s
      match D.fieldOf key with
      | none => .err .badMessage
      | some f => do
        let (m, s) ← readField T utf8 G r f m' s
        readMembers T utf8 G r D fuel false m (skipWs s)) = .err .badMessage := by
  rw [L.readRaw key v _ hkey]
  have hcol : readColon (c ++ 0x3a :: tail) = .ok (skipWs tail) := by
    unfold readColon
    rw [skipWs_starts hc rfl]
    simp only [expect_cons, res_bind_ok]
  simp only [res_bind_ok, hcol, fieldOf_none unknown]

include hD L hr hnull

theorem unknown_later {key v c tail : List Byte} (hkey : Spec.unescape key = some v) (hc : Ws c)
    (unknown : ∀ f ∈ D.fields, f.jsonName ≠ key ∧ f.name ≠ key) {ms : List (JStr × JTree)} {t : List Byte}
    (hms : OpenMembers ms t) :
    ∀ {fs : List JField} {P : List JField} {m' : DynMsg}, Partly same D m P m' → (∀ f ∈ fs, f ∈ D.fields) →
      (P ++ fs.filter fun f => f.dyn.hasValue m).Nodup →
      All2 (memberForm T anyStyle (fun f => fieldForm T G utf8 anyStyle form f m) m) fs ms →
      ∀ fuel, ms.length < fuel →
      readMembers T utf8 G r D fuel false m' (0x2c :: (t ++ 0x22 :: key ++ 0x22 :: (c ++ 0x3a :: tail))) = .err .badMessage := by
  have fresh : ∀ {f : JField} {fs P : List JField}, (P ++ (f :: fs).filter fun f => f.dyn.hasValue m).Nodup →
      f.dyn.hasValue m = true → f ∉ P := by
    intro f fs P hnd hv hin
    exact (List.nodup_append.1 hnd).2.2 f hin f (by simp [hv]) rfl
  induction hms with
  | @nil a ha =>
    intro fs P m' h _ _ hall fuel hfuel
    obtain ⟨fuel, rfl⟩ : ∃ k, fuel = k + 1 := ⟨fuel - 1, by simp at hfuel; omega⟩
    rw [readMembers, if_neg (by simp only [look_cons]; decide)]
    simp only [Bool.false_eq_true, if_false, expect_cons, res_bind_ok]
    have e : skipWs (a ++ 0x22 :: key ++ 0x22 :: (c ++ 0x3a :: tail)) = 0x22 :: key ++ 0x22 :: (c ++ 0x3a :: tail) := by
      have := skipWs_starts ha (show isWs 0x22 = false from rfl) (key ++ 0x22 :: (c ++ 0x3a :: tail))
      simpa only [List.cons_append, List.append_assoc] using this
    rw [e]
    exact unknown_first L hkey hc unknown m' fuel
  | @cons p ps a t b r' ha hx hb hrr ih =>
    intro fs P m' h hmem hnd hall fuel hfuel
    obtain ⟨f, fs, rfl, hf, hrest⟩ := all2_cons_right hall
    obtain ⟨fuel, rfl⟩ : ∃ k, fuel = k + 1 := ⟨fuel - 1, by omega⟩
    obtain ⟨m1, h1, _, h3⟩ := read_member hD L hr hnull h (hmem f (by simp)) (fresh hnd) hf hx
      (rest := b ++ 0x2c :: (r' ++ 0x22 :: key ++ 0x22 :: (c ++ 0x3a :: tail))) (numChar_ws hb rfl _)
    rw [filter_cons_setOf, ← List.append_assoc] at hnd
    have h4 := ih h1 (fun g hg => hmem g (by simp [hg])) hnd hrest fuel
      (by rw [List.length_cons] at hfuel; omega)
    have e : 0x2c :: (a ++ t ++ b ++ 0x2c :: r' ++ 0x22 :: key ++ 0x22 :: (c ++ 0x3a :: tail)) =
        0x2c :: (a ++ t ++ (b ++ 0x2c :: (r' ++ 0x22 :: key ++ 0x22 :: (c ++ 0x3a :: tail)))) := by
      simp
    rw [e, h3 _ a ha, skipWs_starts hb rfl]
    exact h4

theorem unknown_object {key v c tail : List Byte} (hkey : Spec.unescape key = some v) (hc : Ws c)
    (unknown : ∀ f ∈ D.fields, f.jsonName ≠ key ∧ f.name ≠ key) {ms : List (JStr × JTree)} {a t : List Byte}
    (ha : Ws a) (hms : OpenMembers ms t) {fs : List JField} (hmem : ∀ f ∈ fs, f ∈ D.fields)
    (hnd : (fs.filter fun f => f.dyn.hasValue m).Nodup)
    (hall : All2 (memberForm T anyStyle (fun f => fieldForm T G utf8 anyStyle form f m) m) fs ms) :
    readObject T utf8 G r D D.dyn.empty (a ++ 0x7b :: t ++ 0x22 :: key ++ 0x22 :: c ++ 0x3a :: tail) = .err .badMessage := by
  unfold readObject
  have e : a ++ 0x7b :: t ++ 0x22 :: key ++ 0x22 :: c ++ 0x3a :: tail =
      a ++ 0x7b :: (t ++ (0x22 :: key ++ 0x22 :: (c ++ 0x3a :: tail))) := by simp
  rw [e, skipWs_starts ha rfl]
  simp only [expect_cons, res_bind_ok]
  cases hms with
  | nil ha' =>
    have e : skipWs (t ++ (0x22 :: key ++ 0x22 :: (c ++ 0x3a :: tail))) = 0x22 :: key ++ 0x22 :: (c ++ 0x3a :: tail) := by
      have := skipWs_starts ha' (show isWs 0x22 = false from rfl) (key ++ 0x22 :: (c ++ 0x3a :: tail))
      simpa only [List.cons_append, List.append_assoc] using this
    rw [e, readMembers, if_neg (by simp only [List.cons_append, look_cons]; decide)]
    exact unknown_first L hkey hc unknown _ _
  | @cons p ps a' t b r' ha' hx hb hrr =>
    obtain ⟨f, fs, rfl, hf, hrest⟩ := all2_cons_right hall
    obtain ⟨m1, h1, h2, _⟩ := read_member hD L hr hnull (partly_empty (D := D)) (hmem f (by simp)) (by simp) hf hx
      (rest := b ++ 0x2c :: (r' ++ 0x22 :: key ++ 0x22 :: (c ++ 0x3a :: tail))) (numChar_ws hb rfl _)
    obtain ⟨u, hu⟩ := member_head hx
    have e : skipWs (a' ++ t ++ b ++ 0x2c :: r' ++ (0x22 :: key ++ 0x22 :: (c ++ 0x3a :: tail))) =
        t ++ (b ++ 0x2c :: (r' ++ 0x22 :: key ++ 0x22 :: (c ++ 0x3a :: tail))) := by
      rw [hu]
      simpa using skipWs_starts ha' (show isWs 0x22 = false from rfl)
        (u ++ (b ++ 0x2c :: (r' ++ 0x22 :: key ++ 0x22 :: (c ++ 0x3a :: tail))))
    rw [e, h2, skipWs_starts hb rfl]
    rw [filter_cons_setOf] at hnd
    refine unknown_later hD L hr hnull hkey hc unknown hrr h1 (fun g hg => hmem g (by simp [hg])) (by simpa using hnd) hrest _ ?_
    have hlen : ∀ {ps : List (JStr × JTree)} {r' : List Byte}, OpenMembers ps r' → ps.length ≤ r'.length := by
      intro ps r' h
      induction h with
      | nil => simp
      | cons _ _ _ _ ih => simp; omega
    have := hlen hrr
    simp
    omega

end

end HppProto.Json
