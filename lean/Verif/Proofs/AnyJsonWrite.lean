import Verif.Spec.AnyJson
import Verif.Proofs.JsonWrite

/-! # Writing `google.protobuf.Any` as JSON -/

namespace HppProto.Json
open HppProto HppProto.Spec

theorem takeWhile_until {c : Byte} {a b : List Byte} (h : c ∉ a) : (a ++ c :: b).takeWhile (· != c) = a := by
  induction a with
  | nil => simp
  | cons x a ih =>
    have hx : x ≠ c := fun e => h (by simp [e])
    rw [List.cons_append, List.takeWhile_cons, if_pos (by simpa using hx), ih (fun hm => h (by simp [hm]))]

theorem afterSlash_url {before name : List Byte} (h : (0x2f : Byte) ∉ name) : afterSlash (before ++ 0x2f :: name) = name := by
  unfold afterSlash
  rw [List.reverse_append, List.reverse_cons, List.append_assoc, List.singleton_append,
    takeWhile_until (by simpa using h), List.reverse_reverse]

theorem typeOf_url {E : AnyEnv} {url : List Byte} {id : Nat} (h : IsTypeUrl E url id) : E.typeOf url = some id := by
  obtain ⟨before, name, rfl, h1, h2, h3⟩ := h
  unfold AnyEnv.typeOf messageName
  rw [afterSlash_url h1, if_pos ⟨by simp, h2⟩]
  exact h3

theorem url_ne {E : AnyEnv} {url : List Byte} {id : Nat} (h : IsTypeUrl E url id) : url ≠ [] := by
  obtain ⟨before, name, rfl, _⟩ := h
  simp

section
variable {T : JTypes} {G : Glaze} {utf8 : List Byte → Bool} {E : AnyEnv} {o : JOpts}

theorem decode_holds {url bytes : List Byte} {pid : Nat} {p : DynMsg} (h : Holds T utf8 E url bytes pid p) :
    decodePayload T utf8 E pid bytes = .ok p := by
  unfold decodePayload
  rw [h.2]

theorem intercalate_cons (sep t : List Byte) : ∀ {ts : List (List Byte)}, ts ≠ [] →
    List.intercalate sep (t :: ts) = t ++ sep ++ List.intercalate sep ts
  | [], h => absurd rfl h
  | u :: ts, _ => by simp [List.intercalate, List.intersperse]

theorem intercalate_ne {sep : List Byte} {ms : List (JStr × JTree)} : ∀ {ts : List (List Byte)}, All2 SpellsMember ms ts →
    (List.intercalate sep ts = [] ↔ ts = []) := by
  intro ts h
  cases ts with
  | nil => simp [List.intercalate]
  | cons t ts =>
    cases ms with
    | nil => exact h.elim
    | cons p ms =>
      obtain ⟨u, rfl⟩ := member_head h.1
      cases ts <;> simp [List.intercalate, List.intersperse]

/-- The payload is written as members without braces. -/
def WritesMembers (o : JOpts) (form : Nat → DynMsg → JTree → Prop) (w : JWriter) : Prop :=
  ∀ ind id m ms, form id m (.obj ms) → ∃ ts, w ind id m = .ok (List.intercalate (0x2c :: o.line ind) ts) ∧
    All2 SpellsMember ms ts

variable (L : G.Lawful)
include L

theorem type_member (url : List Byte) : SpellsMember (typeKey, .str ⟨url, false⟩)
    (quoted b!"@type" ++ 0x3a :: o.space ++ G.writeStr url) := by
  have hk : SpellsStr typeKey (quoted b!"@type") := spellsStr_plain (by unfold Plain; decide)
  have := SpellsMember.mk hk ws_nil (ws_space o) (Spells.str (s := ⟨url, false⟩) ⟨L.writeStr url, by intro h; cases h⟩)
  simpa using this

theorem write_any_body (hE : AnyTypes T) {value payload : Nat → DynMsg → JTree → Prop} {l : AnyWriters} {opened : Bool}
    (hv : Writes T value (l.msg opened)) (hp : WritesMembers o payload l.payload) {url bytes : List Byte} {pid : Nat}
    {p : DynMsg} {ms : List (JStr × JTree)} (hh : Holds T utf8 E url bytes pid p)
    (h : if (T pid).wk = .none then payload pid p (.obj ms) else ∃ x, value pid p x ∧ ms = [(⟨b!"value", true⟩, x)])
    (ind : Nat) : ∃ ts, writeAnyBody T utf8 G E o l opened ind url bytes =
      .ok (List.intercalate (0x2c :: o.line ind) ((quoted b!"@type" ++ 0x3a :: o.space ++ G.writeStr url) :: ts)) ∧
      All2 SpellsMember ms ts := by
  unfold writeAnyBody
  simp only [typeOf_url hh.1, decode_holds hh, res_bind_ok]
  by_cases hwk : (T pid).wk = .none
  · rw [if_pos hwk] at h
    obtain ⟨ts, h1, h2⟩ := hp ind pid p ms h
    refine ⟨ts, ?_, h2⟩
    rw [if_neg (by simpa using hwk), h1]
    simp only [res_bind_ok, intercalate_ne h2]
    by_cases ht : ts = []
    · rw [if_pos ht, ht]
      simp [List.intercalate]
    · rw [if_neg ht, intercalate_cons _ _ ht]
  · rw [if_neg hwk] at h
    obtain ⟨x, hx, rfl⟩ := h
    obtain ⟨t, h1, h2⟩ := hv ind pid p x hx
    have he : (T pid).entry = false := by
      cases e : (T pid).entry with
      | false => rfl
      | true => exact absurd (hE.entry pid e) hwk
    unfold Written at h2
    rw [if_neg (by simp [he])] at h2
    refine ⟨[quoted b!"value" ++ 0x3a :: o.space ++ t], ?_, ?_, trivial⟩
    · rw [if_pos hwk, h1]
      simp [List.intercalate, List.intersperse]
    · have := SpellsMember.mk (k := ⟨b!"value", true⟩) (spellsStr_plain (by unfold Plain; decide)) ws_nil (ws_space o) h2
      simpa using this

omit L in
theorem spells_braces (ind : Nat) {ms : List (JStr × JTree)} {ts : List (List Byte)} (h : All2 SpellsMember ms ts) :
    Spells (.obj ms) (inBraces o ind (List.intercalate (0x2c :: o.line (o.deeper ind)) ts)) := by
  have := Spells.obj (members_of_seq (seq_intercalate (ws_line o (o.deeper ind)) (ws_line o ind) h (ws_line o (o.deeper ind))))
  unfold inBraces
  simpa using this

theorem write_any (hE : AnyTypes T) {can : Nat → DynMsg → Prop} {value payload : Nat → DynMsg → JTree → Prop}
    {l : AnyWriters} {opened : Bool} (hv : Writes T value (l.msg opened)) (hp : WritesMembers o payload l.payload)
    {id : Nat} {m : DynMsg} {j : JTree} (h : anyForm T utf8 E (writerStyle o.preserve) can value payload id m j) (ind : Nat) :
    ∃ t, writeAny T utf8 G E o l opened ind (T id) m = .ok t ∧ Spells j t := by
  obtain ⟨_, u, v, url, bytes, pid, p, ms, hf, hu, hurl, hb, hh, _, hms, hj⟩ := h
  replace hj : j = .obj ((typeKey, .str ⟨url, false⟩) :: ms) := hj
  obtain ⟨ts, h1, h2⟩ := write_any_body L hE hv hp hh hms (o.deeper ind)
  refine ⟨inBraces o ind (List.intercalate (0x2c :: o.line (o.deeper ind))
    ((quoted b!"@type" ++ 0x3a :: o.space ++ G.writeStr url) :: ts)), ?_, ?_⟩
  · unfold writeAny
    rw [hf]
    simp only [hurl, hb]
    have : noText u url m = false := by
      have := url_ne hh.1
      simp [noText, hu, this]
    rw [this, Bool.false_and, if_neg (by simp), h1]
    rfl
  · rw [hj]
    exact spells_braces ind ⟨type_member L url, h2⟩

theorem write_opened (hE : AnyTypes T) {form : Nat → DynMsg → JTree → Prop} {w : JWriter} (hw : Writes T form w)
    {id : Nat} {m : DynMsg} {ms : List (JStr × JTree)}
    (h : objectForm T (writerStyle o.preserve) (fun f => fieldForm T G utf8 (writerStyle o.preserve) form f m) (T id) m (.obj ms))
    (ind : Nat) : ∃ ts, writeOpened T G o w ind (T id) m = .ok (List.intercalate (0x2c :: o.line ind) ts) ∧
      All2 SpellsMember ms ts := by
  obtain ⟨ms', hj, hall⟩ := writer_members L hw h
  cases hj
  obtain ⟨ts, h1, h2⟩ := write_members L hw (hE.ok id) ind (fun _ hf => hf) hall
  refine ⟨ts, ?_, h2⟩
  unfold writeOpened
  rw [h1]
  rfl

omit L in
theorem anyForm_shaped (S : Style) (can : Nat → DynMsg → Prop) (bare : Bool) (d : Nat) {place : Place} (hp : place ≠ .payload) :
    ShapedForm T G utf8 S (AnyFormAt T G utf8 E S can bare d place) := by
  intro id m j hwk h
  cases d with
  | zero => exact h.elim
  | succ d =>
    cases place with
    | payload => exact absurd rfl hp
    | outside =>
      simp only [AnyFormAt] at h
      split at h
      · exact ⟨_, h⟩
      · rcases hwk with e | e | e <;> rw [e] at h <;> exact ⟨_, h⟩
    | inside =>
      simp only [AnyFormAt] at h
      split at h
      · exact ⟨_, h⟩
      · rcases hwk with e | e | e <;> rw [e] at h <;> exact ⟨_, h⟩

theorem write_any_levels (hE : AnyTypes T) (can : Nat → DynMsg → Prop) (d : Nat) :
    (∀ place, place ≠ .payload → Writes T (AnyFormAt T G utf8 E (writerStyle o.preserve) can false d place)
      ((anyWriters T utf8 G E o d).msg (place = .inside))) ∧
    WritesMembers o (AnyFormAt T G utf8 E (writerStyle o.preserve) can false d .payload) (anyWriters T utf8 G E o d).payload := by
  induction d with
  | zero => exact ⟨fun place _ _ _ _ _ h => h.elim, fun _ _ _ _ h => h.elim⟩
  | succ d ih =>
    obtain ⟨ihm, ihp⟩ := ih
    constructor
    · intro place hplace ind id m j h
      have body : ∀ place, place ≠ .payload →
          bodyForm T G utf8 (writerStyle o.preserve) (AnyFormAt T G utf8 E (writerStyle o.preserve) can false d place) id m j →
          ∃ t, writeBody T G o ((anyWriters T utf8 G E o d).msg (place = .inside)) ind id m = .ok t ∧ Written T id j t :=
        fun place hp h => write_body L hE.ok (ihm place hp) (anyForm_shaped _ can false d hp) ind id m j h
      have form : if (T id).entry then bodyForm T G utf8 (writerStyle o.preserve)
            (AnyFormAt T G utf8 E (writerStyle o.preserve) can false d .outside) id m j
          else match (T id).wk with
            | .any =>
              anyForm T utf8 E (writerStyle o.preserve) can (AnyFormAt T G utf8 E (writerStyle o.preserve) can false d place)
                (AnyFormAt T G utf8 E (writerStyle o.preserve) can false d .payload) id m j
            | .none => (false = true ∨ place = .outside) ∧
              bodyForm T G utf8 (writerStyle o.preserve) (AnyFormAt T G utf8 E (writerStyle o.preserve) can false d place) id m j
            | _ => bodyForm T G utf8 (writerStyle o.preserve)
              (AnyFormAt T G utf8 E (writerStyle o.preserve) can false d place) id m j := by
        cases place with
        | payload => exact absurd rfl hplace
        | outside => exact h
        | inside => exact h
      clear h
      simp only [anyWriters]
      cases he : (T id).entry with
      | true =>
        simp only [he, if_true] at form ⊢
        obtain ⟨t, h1, h2⟩ := body .outside (by simp) form
        refine ⟨t, ?_, h2⟩
        rw [← h1]
        simp [writeBody, he]
      | false =>
        simp only [he, Bool.false_eq_true, if_false] at form ⊢
        cases hwk : (T id).wk with
        | any =>
          rw [hwk] at form
          simp only at form ⊢
          obtain ⟨t, h1, h2⟩ := write_any L hE (ihm place hplace) ihp form ind
          exact ⟨t, h1, by unfold Written; rw [if_neg (by simp [he])]; exact h2⟩
        | none =>
          rw [hwk] at form
          simp only at form ⊢
          obtain ⟨hb, form⟩ := form
          have : place = .outside := by simpa using hb
          subst this
          obtain ⟨t, h1, h2⟩ := body .outside (by simp) form
          refine ⟨t, ?_, h2⟩
          rw [← h1]
          simp [writeBody, he, hwk]
        | _ =>
          rw [hwk] at form
          exact body place hplace form
    · intro ind id m ms h
      exact write_opened L hE (ihm .inside (by simp)) h.2 ind

end

end HppProto.Json
