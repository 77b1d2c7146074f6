import Verif.Proofs.AnyJsonWrite
import Verif.Proofs.JsonStyle

/-! # Reading `google.protobuf.Any` from JSON -/

namespace HppProto.Json
open HppProto HppProto.Spec

/-- The loop over members stands before the members `ms` of an object; `first`: after the opening brace. -/
def AtMembers (first : Bool) (ms : List (JStr × JTree)) (s rest : List Byte) : Prop :=
  ∃ t, Seq SpellsMember ms t ∧ s = if first then skipWs (t ++ 0x7d :: rest) else following ms t ++ 0x7d :: rest

theorem at_nil {first : Bool} {s rest : List Byte} (h : AtMembers first [] s rest) : s = 0x7d :: rest := by
  obtain ⟨t, hs, rfl⟩ := h
  cases first with
  | false => simp [following]
  | true =>
    cases hs with
    | nil ha => exact skipWs_starts ha rfl rest

theorem at_end (rest : List Byte) (first : Bool) : AtMembers first [] (0x7d :: rest) rest :=
  ⟨[], .nil ws_nil, by cases first <;> rfl⟩

section
variable {T : JTypes} {G : Glaze} {utf8 : List Byte → Bool} {E : AnyEnv} (L : G.Lawful)
include L

theorem key_read {p : JStr × JTree} (hp : p.1.plain = true) {t R : List Byte} (ht : SpellsMember p t) :
    ∃ v, readKey' G (t ++ R) = .ok (p.1.text, v ++ R) ∧ Spells p.2 v := by
  cases ht with
  | @mk k x s a b v hs ha hb hv =>
    obtain ⟨hplain, rfl⟩ := hs.2 hp
    refine ⟨v, ?_, hv⟩
    have hview := L.readView k.text (a ++ 0x3a :: (b ++ (v ++ R))) hplain
    have hcol : readColon (a ++ 0x3a :: (b ++ (v ++ R))) = .ok (v ++ R) := by
      unfold readColon
      rw [skipWs_starts ha rfl]
      simp only [expect_cons, res_bind_ok]
      rw [← List.append_assoc, skipWs_spells hb hv]
    have e : (0x22 :: k.text ++ [0x22] ++ a ++ 0x3a :: b ++ v ++ R : List Byte) =
        0x22 :: k.text ++ 0x22 :: (a ++ 0x3a :: (b ++ (v ++ R))) := by simp
    unfold readKey'
    rw [e, hview]
    simp only [res_bind_ok, hcol]

/-- One step of the loops over members. -/
theorem at_cons {first : Bool} {p : JStr × JTree} {ms : List (JStr × JTree)} {s rest : List Byte} (hp : p.1.plain = true)
    (h : AtMembers first (p :: ms) s rest) :
    look s ≠ 0x7d ∧ ∃ k v R, toKey first s = .ok k ∧ AtMembers true (p :: ms) k rest ∧ skipWs k = k ∧
      readKey' G k = .ok (p.1.text, v ++ R) ∧ Spells p.2 v ∧ numChar (look R) = false ∧ AtMembers false ms (skipWs R) rest := by
  obtain ⟨t, hs, hse⟩ := h
  have main : ∃ u v R, skipWs (t ++ 0x7d :: rest) = 0x22 :: u ∧ readKey' G (0x22 :: u) = .ok (p.1.text, v ++ R) ∧
      Spells p.2 v ∧ numChar (look R) = false ∧ AtMembers false ms (skipWs R) rest := by
    cases hs with
    | @one p a t b ha hx hb =>
      obtain ⟨u, rfl⟩ := member_head hx
      obtain ⟨v, h1, h2⟩ := key_read L hp (R := b ++ 0x7d :: rest) hx
      refine ⟨u ++ (b ++ 0x7d :: rest), v, b ++ 0x7d :: rest, ?_, h1, h2, numChar_ws hb rfl _, ?_⟩
      · simpa using skipWs_starts ha (show isWs 0x22 = false from rfl) (u ++ (b ++ 0x7d :: rest))
      · rw [skipWs_starts hb rfl]
        exact at_end rest false
    | @more p q ms a t b r ha hx hb hr =>
      obtain ⟨u, rfl⟩ := member_head hx
      obtain ⟨v, h1, h2⟩ := key_read L hp (R := b ++ 0x2c :: (r ++ 0x7d :: rest)) hx
      refine ⟨u ++ (b ++ 0x2c :: (r ++ 0x7d :: rest)), v, _, ?_, h1, h2, numChar_ws hb rfl _, ?_⟩
      · simpa using skipWs_starts ha (show isWs 0x22 = false from rfl) (u ++ (b ++ 0x2c :: (r ++ 0x7d :: rest)))
      · rw [skipWs_starts hb rfl]
        exact ⟨r, hr, by simp [following]⟩
  obtain ⟨u, v, R, h1, h2, h3, h4, h5⟩ := main
  have hk : skipWs (0x22 :: u) = 0x22 :: u := skipWs_cons rfl u
  cases first with
  | true =>
    rw [if_pos rfl] at hse
    refine ⟨by rw [hse, h1]; simp only [look_cons]; decide, 0x22 :: u, v, R, ?_, ⟨t, hs, by rw [if_pos rfl, h1]⟩, hk, h2, h3, h4, h5⟩
    rw [toKey, if_pos rfl, hse, h1]
  | false =>
    rw [if_neg (by simp)] at hse
    have e : s = 0x2c :: (t ++ 0x7d :: rest) := by rw [hse]; simp [following]
    refine ⟨by rw [e]; simp only [look_cons]; decide, 0x22 :: u, v, R, ?_, ⟨t, hs, by rw [if_pos rfl, h1]⟩, hk, h2, h3, h4, h5⟩
    rw [toKey, if_neg (by simp), e]
    simp only [expect_cons, res_bind_ok, h1]

theorem skip_spells (N : E.Lawful) {j : JTree} {v R : List Byte} (h : Spells j v) (hR : numChar (look R) = false) :
    skipValue G E (v ++ R) = .ok R := by
  unfold skipValue
  cases h with
  | null => simp [expectText]
  | true => simp [expectText]
  | false => simp [expectText]
  | num hn =>
    have hskip := N v R hn hR
    obtain ⟨c, u, rfl, hc⟩ := numText_head hn
    obtain ⟨_, h1, h2, h3, h4, h5, h6⟩ := digit_starter hc
    simp only
    rw [if_neg (show look (c :: u ++ R) ≠ 0x7b from h6), if_neg (show look (c :: u ++ R) ≠ 0x5b from h5),
      if_neg (show look (c :: u ++ R) ≠ 0x22 from h4), if_neg (show look (c :: u ++ R) ≠ 0x6e from h1),
      if_neg (show look (c :: u ++ R) ≠ 0x74 from h3), if_neg (show look (c :: u ++ R) ≠ 0x66 from h2)]
    exact hskip
  | str hs =>
    obtain ⟨u, hu⟩ := spellsStr_head hs
    have := L.skipStr _ _ R hs.1
    rw [hu] at this ⊢
    simp only [List.cons_append, look_cons]
    rw [if_neg (by decide), if_neg (by decide), if_pos trivial]
    exact this
  | @arr xs t hi =>
    have := L.skipArr xs t R hi
    simp only [List.cons_append, look_cons, List.append_assoc, List.nil_append]
    rw [if_neg (by decide), if_pos trivial]
    simp only [step, res_bind_ok]
    exact this
  | @obj ms t hm =>
    have := L.skipObj ms t R hm
    simp only [List.cons_append, look_cons, List.append_assoc, List.nil_append]
    rw [if_pos trivial]
    simp only [step, res_bind_ok]
    exact this

/-! ## Finding the type -/

/-- The member is `@type`. -/
def isTypeMember (p : JStr × JTree) : Bool := p.1.text == b!"@type"

/-- The last `@type`. -/
def lastUrl (url : List Byte) : List (JStr × JTree) → List Byte
  | [] => url
  | p :: ms =>
    match isTypeMember p, p.2 with
    | true, .str x => lastUrl x.text ms
    | _, _ => lastUrl url ms

theorem scan_type (N : E.Lawful) (rest : List Byte) : ∀ (ms : List (JStr × JTree)) (first tf : Bool) (url pos s : List Byte)
    (fuel : Nat), AtMembers first ms s rest → (∀ p ∈ ms, p.1.plain = true) →
    (∀ p ∈ ms, isTypeMember p = true → ∃ x, p.2 = .str x) → ms.length < fuel → (first = true → tf = true) →
    (tf = true → ms = [] → AtMembers true [] pos rest) →
    ∃ P, scanType G E fuel first tf url pos s = .ok (lastUrl url ms, P) ∧
      (tf = true → AtMembers true (ms.dropWhile isTypeMember) P rest) ∧ (tf = false → P = pos)
  | [], first, tf, url, pos, s, fuel, hat, _, _, hfuel, _, hpos => by
    obtain ⟨fuel, rfl⟩ : ∃ k, fuel = k + 1 := ⟨fuel - 1, by simp at hfuel; omega⟩
    rw [at_nil hat, scanType]
    exact ⟨pos, by simp [lastUrl], fun h => hpos h rfl, fun _ => rfl⟩
  | p :: ms, first, tf, url, pos, s, fuel, hat, hplain, htype, hfuel, hft, hpos => by
    obtain ⟨fuel, rfl⟩ : ∃ k, fuel = k + 1 := ⟨fuel - 1, by omega⟩
    obtain ⟨hne, k, v, R, h1, h2, _, h3, h4, h5, h6⟩ := at_cons L (hplain p (by simp)) hat
    rw [scanType, if_neg hne, h1]
    simp only [res_bind_ok, h3]
    have hlen : ms.length < fuel := by rw [List.length_cons] at hfuel; omega
    cases ht : isTypeMember p with
    | true =>
      have hkey : p.1.text = b!"@type" := by simpa [isTypeMember] using ht
      obtain ⟨x, hx⟩ := htype p (by simp) ht
      rw [hx] at h4
      cases h4 with
      | str hs =>
        simp only [hkey, if_true, L.readStr _ _ R hs.1, res_bind_ok]
        obtain ⟨P, k1, k2, k3⟩ := scan_type N rest ms false tf x.text (if tf then skipWs R else if first || tf then k else pos)
          (skipWs R) fuel h6 (fun q hq => hplain q (by simp [hq])) (fun q hq => htype q (by simp [hq])) hlen (by simp)
          (by
            intro e e'
            subst e'
            rw [e, if_pos rfl, at_nil h6]
            exact at_end rest true)
        refine ⟨P, by simp only [lastUrl, ht, hx]; exact k1, ?_, ?_⟩
        · intro e
          rw [List.dropWhile_cons, if_pos ht]
          exact k2 e
        · intro e
          have hf : first = false := by
            cases first with
            | false => rfl
            | true => rw [hft rfl] at e; cases e
          rw [k3 e, e, hf]
          rfl
    | false =>
      have hkey : p.1.text ≠ b!"@type" := by simpa [isTypeMember] using ht
      simp only [hkey, if_false, skip_spells L N h4 h5, res_bind_ok]
      obtain ⟨P, k1, k2, k3⟩ := scan_type N rest ms false false url (if first || tf then k else pos)
        (skipWs R) fuel h6 (fun q hq => hplain q (by simp [hq])) (fun q hq => htype q (by simp [hq])) hlen (by simp) (by simp)
      refine ⟨P, by simp only [lastUrl, ht]; exact k1, ?_, ?_⟩
      · intro e
        rw [List.dropWhile_cons, if_neg (by simp [ht]), k3 rfl, e, Bool.or_true, if_pos rfl]
        exact h2
      · intro e
        have hf : first = false := by
          cases first with
          | false => rfl
          | true => rw [hft rfl] at e; cases e
        rw [k3 rfl, e, hf]
        rfl

omit L in
theorem lastUrl_none {ms : List (JStr × JTree)} (h : ∀ p ∈ ms, isTypeMember p = false) (url : List Byte) : lastUrl url ms = url := by
  induction ms with
  | nil => rfl
  | cons p ms ih =>
    simp only [lastUrl, h p (by simp)]
    exact ih (fun q hq => h q (by simp [hq]))

omit L in
theorem lastUrl_one {a b : List (JStr × JTree)} (ha : ∀ p ∈ a, isTypeMember p = false) (hb : ∀ p ∈ b, isTypeMember p = false)
    (x : JStr) (url : List Byte) : lastUrl url (a ++ (typeKey, .str x) :: b) = x.text := by
  induction a with
  | nil =>
    have : isTypeMember (typeKey, .str x) = true := rfl
    simp only [List.nil_append, lastUrl, this]
    exact lastUrl_none hb _
  | cons p a ih =>
    simp only [List.cons_append, lastUrl, ha p (by simp)]
    exact ih (fun q hq => ha q (by simp [hq]))

/-- The type is found wherever it is; the rest of the members can then be read. -/
theorem get_type (N : E.Lawful) {a b : List (JStr × JTree)} (hplain : ∀ p ∈ a ++ b, p.1.plain = true)
    (hno : ∀ p ∈ a ++ b, isTypeMember p = false) {url : List Byte} (hurl : url ≠ []) {w t rest : List Byte} (hw : Ws w)
    (ht : Spells (.obj (a ++ (typeKey, .str ⟨url, false⟩) :: b)) t) :
    ∃ P ms, getType G E (w ++ t ++ rest) = .ok (url, P) ∧ AtMembers true ms P rest ∧
      (ms = a ++ (typeKey, .str ⟨url, false⟩) :: b ∨ (a = [] ∧ ms = b)) := by
  cases ht with
  | @obj _ t hm =>
    have hseq := seq_of_members hm
    have e : w ++ (0x7b :: t ++ [0x7d]) ++ rest = w ++ 0x7b :: (t ++ 0x7d :: rest) := by simp
    obtain ⟨t', hseq', hstrip⟩ := seq_strip (fun _ _ h => by obtain ⟨u, e⟩ := member_head h; exact ⟨_, u, e, rfl⟩) hseq
      (show isWs 0x7d = false from rfl) rest
    have hlen : (a ++ (typeKey, JTree.str ⟨url, false⟩) :: b).length < (skipWs (t ++ 0x7d :: rest)).length + 1 := by
      have := seq_length hseq'
      rw [hstrip]
      simp only [List.length_append, List.length_cons] at this ⊢
      omega
    obtain ⟨P, h1, h2, _⟩ := scan_type L N rest (a ++ (typeKey, .str ⟨url, false⟩) :: b) true true []
      (w ++ (0x7b :: t ++ [0x7d]) ++ rest) (skipWs (t ++ 0x7d :: rest)) _ ⟨t, hseq, by rw [if_pos rfl]⟩
      (by
        intro p hp
        rcases List.mem_append.1 hp with h | h
        · exact hplain p (by simp [h])
        · rcases List.mem_cons.1 h with rfl | h
          · rfl
          · exact hplain p (by simp [h]))
      (by
        intro p hp hty
        rcases List.mem_append.1 hp with h | h
        · rw [hno p (by simp [h])] at hty; cases hty
        · rcases List.mem_cons.1 h with rfl | h
          · exact ⟨_, rfl⟩
          · rw [hno p (by simp [h])] at hty; cases hty) hlen (fun _ => rfl) (by simp)
    rw [lastUrl_one (fun p hp => hno p (by simp [hp])) (fun p hp => hno p (by simp [hp]))] at h1
    refine ⟨P, _, ?_, h2 rfl, ?_⟩
    · unfold getType
      rw [e, skipWs_starts hw rfl]
      simp only [expect_cons, res_bind_ok]
      rw [← e, h1]
      simp only [res_bind_ok, if_neg hurl]
    · cases a with
      | nil =>
        right
        refine ⟨rfl, ?_⟩
        rw [List.nil_append, List.dropWhile_cons, if_pos (show isTypeMember (typeKey, JTree.str ⟨url, false⟩) = true from rfl)]
        cases b with
        | nil => rfl
        | cons q b => rw [List.dropWhile_cons, if_neg (by simp [hno q])]
      | cons p a =>
        left
        rw [List.cons_append, List.dropWhile_cons, if_neg (by simp [hno p])]

/-! ## The value of a well-known type -/

theorem scan_value (N : E.Lawful) (rest : List Byte) (x : JTree) : ∀ (ms : List (JStr × JTree)) (first : Bool)
    (val : Option (List Byte × List Byte)) (s : List Byte) (fuel : Nat), AtMembers first ms s rest →
    (∀ p ∈ ms, p = (⟨b!"value", true⟩, x) ∨ p.1 = typeKey) → ms.length < fuel →
    ((∃ p ∈ ms, p.1 ≠ typeKey) ∨ ∃ v R, val = some (v ++ R, R) ∧ Spells x v ∧ numChar (look R) = false) →
    ∃ v R, scanValue G E fuel first val s = .ok (some (v ++ R, R), rest) ∧ Spells x v ∧ numChar (look R) = false
  | [], first, val, s, fuel, hat, _, hfuel, hv => by
    obtain ⟨fuel, rfl⟩ : ∃ k, fuel = k + 1 := ⟨fuel - 1, by simp at hfuel; omega⟩
    rw [at_nil hat, scanValue]
    rcases hv with ⟨p, hp, _⟩ | ⟨v, R, rfl, h1, h2⟩
    · cases hp
    · exact ⟨v, R, by simp, h1, h2⟩
  | p :: ms, first, val, s, fuel, hat, hmem, hfuel, hv => by
    obtain ⟨fuel, rfl⟩ : ∃ k, fuel = k + 1 := ⟨fuel - 1, by omega⟩
    have hplain : p.1.plain = true := by
      rcases hmem p (by simp) with h | h
      · rw [h]
      · rw [h]; rfl
    obtain ⟨hne, k, v, R, h1, h2, _, h3, h4, h5, h6⟩ := at_cons L hplain hat
    rw [scanValue, if_neg hne, h1]
    simp only [res_bind_ok, h3]
    have hlen : ms.length < fuel := by rw [List.length_cons] at hfuel; omega
    rcases hmem p (by simp) with h | h
    · subst h
      simp only [if_true, skip_spells L N h4 h5, res_bind_ok]
      exact scan_value N rest x ms false _ _ fuel h6 (fun q hq => hmem q (by simp [hq])) hlen (.inr ⟨v, R, rfl, h4, h5⟩)
    · rw [h]
      simp only [typeKey]
      rw [if_neg (by decide)]
      simp only [if_true, skip_spells L N h4 h5, res_bind_ok]
      refine scan_value N rest x ms false _ _ fuel h6 (fun q hq => hmem q (by simp [hq])) hlen (hv.imp_left ?_)
      rintro ⟨q, hq, hqn⟩
      rcases List.mem_cons.1 hq with rfl | hq
      · exact absurd h hqn
      · exact ⟨q, hq, hqn⟩

omit L in
theorem at_length {ms : List (JStr × JTree)} {s rest : List Byte} (h : AtMembers true ms s rest) :
    skipWs s = s ∧ ms.length < s.length + 1 := by
  obtain ⟨t, hseq, hs⟩ := h
  rw [if_pos rfl] at hs
  obtain ⟨t', hseq', hstrip⟩ := seq_strip (fun _ _ h => by obtain ⟨u, e⟩ := member_head h; exact ⟨_, u, e, rfl⟩) hseq
    (show isWs 0x7d = false from rfl) rest
  constructor
  · rw [hs]
    unfold skipWs
    induction t ++ 0x7d :: rest with
    | nil => rfl
    | cons c u ih =>
      by_cases hc : isWs c = true
      · rw [List.dropWhile_cons, if_pos hc]
        exact ih
      · rw [List.dropWhile_cons, if_neg hc, List.dropWhile_cons, if_neg hc]
  · have := seq_length hseq'
    rw [hs, hstrip, List.length_append]
    omega

theorem read_known (N : E.Lawful) {value : Nat → DynMsg → JTree → Prop} {same : Nat → DynMsg → DynMsg → Prop} {r : JReader}
    (hr : Reads T value same r) {pid : Nat} (he : (T pid).entry = false) {p : DynMsg} {x : JTree} (hx : value pid p x)
    {ms : List (JStr × JTree)} (hms : ∀ q ∈ ms, q = (⟨b!"value", true⟩, x) ∨ q.1 = typeKey) (hone : ∃ q ∈ ms, q.1 ≠ typeKey)
    {s rest : List Byte} (hat : AtMembers true ms s rest) :
    ∃ p', readKnownValue T G E r pid s = .ok (p', rest) ∧ same pid p p' := by
  obtain ⟨hs, hlen⟩ := at_length hat
  obtain ⟨v, R, h1, h2, h3⟩ := scan_value L N rest x ms true none s (s.length + 1) hat hms hlen (.inl hone)
  obtain ⟨p', h4, h5⟩ := hr pid p x [] v R hx (by unfold Written; rw [if_neg (by simp [he])]; exact h2) ws_nil h3
  refine ⟨p', ?_, h5⟩
  unfold readKnownValue
  simp only [hs, h1, res_bind_ok]
  have hne : (v ++ R).length ≠ R.length := by
    have := spells_ne h2
    have : 0 < v.length := by cases v with | nil => exact absurd rfl this | cons _ _ => simp
    rw [List.length_append]
    omega
  rw [if_neg hne]
  rw [List.nil_append] at h4
  rw [h4]
  rfl

/-! ## The members of a payload -/

variable {D : JDesc} (hD : D.Ok T) {same : Nat → DynMsg → DynMsg → Prop} {m : DynMsg}
  {form : Nat → DynMsg → JTree → Prop} {r : JReader} (hr : Reads T form same r) (hnull : NullIsValue T form same)
include hD hr hnull

theorem read_member_value {P : List JField} {m' : DynMsg} (h : Partly same D m P m') {f : JField} (hf : f ∈ D.fields)
    {p : JStr × JTree} (hn : f.dyn.hasValue m = true → f ∉ P)
    (hform : memberForm T anyStyle (fun f => fieldForm T G utf8 anyStyle form f m) m f p)
    {t rest : List Byte} (ht : Spells p.2 t) (hrest : numChar (look rest) = false) :
    D.fieldOf p.1.text = some f ∧
    ∃ m'', readField T utf8 G r f m' (t ++ rest) = .ok (m'', rest) ∧ Partly same D m (P ++ setOf m f) m'' := by
  obtain ⟨hk, hp, hform⟩ := hform
  refine ⟨fieldOf_key hD hf hk, ?_⟩
  rcases hform with ⟨hv, hform⟩ | ⟨_, hv, hx⟩
  · obtain ⟨m'', h1, h2⟩ := read_present hD L hr hnull h hf (hn hv) hv hform ht ws_nil hrest
    rw [List.nil_append] at h1
    exact ⟨m'', h1, by simpa [setOf, hv] using h2⟩
  · obtain ⟨m'', h1, h2⟩ := read_unset hD L hr hnull h hf hv hx ht hrest
    exact ⟨m'', h1, by simpa [setOf, hv] using h2⟩

theorem read_opened_loop (N : E.Lawful) (rest : List Byte) : ∀ (ms : List (JStr × JTree)) (first : Bool) (s : List Byte)
    (fuel : Nat) (fs P : List JField) (m' : DynMsg), AtMembers first ms s rest → Partly same D m P m' →
    (∀ f ∈ fs, f ∈ D.fields) → (P ++ fs.filter fun f => f.dyn.hasValue m).Nodup →
    (∀ p ∈ ms, isTypeMember p = true → p.1.plain = true) →
    All2 (memberForm T anyStyle (fun f => fieldForm T G utf8 anyStyle form f m) m) fs (ms.filter fun p => !isTypeMember p) →
    ms.length < fuel →
    ∃ m'', readOpenedLoop T utf8 G E r D fuel first m' s = .ok (m'', rest) ∧
      Partly same D m (P ++ fs.filter fun f => f.dyn.hasValue m) m''
  | [], first, s, fuel, fs, P, m', hat, h, _, _, _, hall, hfuel => by
    obtain ⟨fuel, rfl⟩ : ∃ k, fuel = k + 1 := ⟨fuel - 1, by simp at hfuel; omega⟩
    cases all2_nil_right hall
    rw [at_nil hat, readOpenedLoop]
    exact ⟨m', by simp, by simpa using h⟩
  | p :: ms, first, s, fuel, fs, P, m', hat, h, hmem, hnd, hty, hall, hfuel => by
    obtain ⟨fuel, rfl⟩ : ∃ k, fuel = k + 1 := ⟨fuel - 1, by omega⟩
    have hlen : ms.length < fuel := by rw [List.length_cons] at hfuel; omega
    rw [List.filter_cons] at hall
    cases ht : isTypeMember p with
    | true =>
      rw [if_neg (by simp [ht])] at hall
      obtain ⟨hne, k, v, R, h1, _, _, h3, h4, h5, h6⟩ := at_cons L (hty p (by simp) ht) hat
      rw [readOpenedLoop, if_neg hne, h1]
      have hkey : p.1.text = b!"@type" := by simpa [isTypeMember] using ht
      simp only [res_bind_ok, h3, hkey, if_true, skip_spells L N h4 h5]
      exact read_opened_loop N rest ms false _ fuel fs P m' h6 h hmem hnd (fun q hq => hty q (by simp [hq])) hall hlen
    | false =>
      rw [if_pos (by simp [ht])] at hall
      obtain ⟨f, fs, rfl, hf, hrest⟩ := all2_cons_right hall
      obtain ⟨hne, k, v, R, h1, _, _, h3, h4, h5, h6⟩ := at_cons L hf.2.1 hat
      rw [readOpenedLoop, if_neg hne, h1]
      have hkey : p.1.text ≠ b!"@type" := by simpa [isTypeMember] using ht
      have fresh : f.dyn.hasValue m = true → f ∉ P := fun hv hin =>
        (List.nodup_append.1 hnd).2.2 f hin f (by simp [hv]) rfl
      obtain ⟨hof, m1, k1, k2⟩ := read_member_value L hD hr hnull h (hmem f (by simp)) fresh hf h4 h5
      simp only [res_bind_ok, h3, if_neg hkey, hof, k1]
      rw [filter_cons_setOf, ← List.append_assoc] at hnd ⊢
      exact read_opened_loop N rest ms false _ fuel fs _ m1 h6 k2 (fun g hg => hmem g (by simp [hg])) hnd
        (fun q hq => hty q (by simp [hq])) hrest hlen

theorem read_opened (N : E.Lawful) {ms : List (JStr × JTree)}
    (hty : ∀ p ∈ ms, isTypeMember p = true → p.1.plain = true)
    (hform : objectForm T anyStyle (fun f => fieldForm T G utf8 anyStyle form f m) D m (.obj (ms.filter fun p => !isTypeMember p)))
    {s rest : List Byte} (hat : AtMembers true ms s rest) :
    ∃ m', readOpened T utf8 G E r D D.dyn.empty s = .ok (m', rest) ∧ m'.length = D.slots ∧
      ∀ f ∈ D.fields, f.dyn.hasValue m' = f.dyn.hasValue m ∧ (f.dyn.hasValue m = true → sameField same f m m') := by
  obtain ⟨fs, ms', hall, hmem, hperm, hj⟩ := hform
  cases hj
  simp only [anyStyle, Bool.false_eq_true, if_false] at hperm
  have hnd : (fs.filter fun f => f.dyn.hasValue m).Nodup :=
    hperm.nodup_iff.2 ((fields_nodup hD).filter _)
  obtain ⟨hs, hlen⟩ := at_length hat
  obtain ⟨m'', h1, h2⟩ := read_opened_loop L hD hr hnull N rest ms true s (s.length + 1) fs [] D.dyn.empty hat
    partly_empty hmem (by simpa using hnd) hty hall hlen
  refine ⟨m'', ?_, h2.length, ?_⟩
  · unfold readOpened
    simp only [hs]
    exact h1
  · refine partly_all hD h2 (fun f hf hv => ?_)
    rw [List.nil_append]
    refine hperm.mem_iff.2 ?_
    simp [hf, hv]

end

end HppProto.Json
