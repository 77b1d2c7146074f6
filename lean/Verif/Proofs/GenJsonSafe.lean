import Verif.Proofs.GenJsonRead
import Verif.Proofs.JsonSafe

/-! # Reading arbitrary text into a generated message: nothing undefined -/

namespace HppProto.Json
open HppProto

/-- What a member of a class must hold so that a message can be read into it. -/
def SlotShaped (S : Nat → Msg → Prop) : GSlot → List (Nat × Val) → Prop
  | .field f (.always _), es => ∀ id, f.ty = .msg id → ∃ a x, es = [(a, .msg x)] ∧ S id x
  | .field f .optional, es => ∀ id, f.ty = .msg id → ∀ e ∈ es, ∀ x, e.2 = .msg x → S id x
  | _, _ => True

/-- A message that can be read into, to a depth. -/
def ShapedAt (T : GTypes) : Nat → Nat → Msg → Prop
  | 0, _, _ => True
  | n + 1, id, m => m.slots.length = (T id).slots.length ∧
      ∀ i sl, (T id).slots[i]? = some sl → SlotShaped (ShapedAt T n) sl (m.get i)

/-- A message that can be read into. -/
def Shaped (T : GTypes) (id : Nat) (m : Msg) : Prop := ∀ n, ShapedAt T n id m

section
variable {T : GTypes}

theorem slotShaped_all {sl : GSlot} {es : List (Nat × Val)} :
    (∀ n, SlotShaped (ShapedAt T n) sl es) ↔ SlotShaped (Shaped T) sl es := by
  cases sl with
  | oneof alts => simp [SlotShaped]
  | field f card =>
    cases card with
    | «always» d =>
      constructor
      · intro h id hid
        obtain ⟨a, x, rfl, _⟩ := h 0 id hid
        refine ⟨a, x, rfl, fun n => ?_⟩
        obtain ⟨a', x', e, h'⟩ := h n id hid
        cases e
        exact h'
      · intro h n id hid
        obtain ⟨a, x, e, h'⟩ := h id hid
        exact ⟨a, x, e, h' n⟩
    | optional =>
      constructor
      · intro h id hid e he x hx n
        exact h n id hid e he x hx
      · intro h n id hid e he x hx
        exact h id hid e he x hx n
    | implicit d => simp [SlotShaped]
    | «repeated» p => simp [SlotShaped]
    | map u => simp [SlotShaped]

theorem shaped_iff {id : Nat} {m : Msg} : Shaped T id m ↔ m.slots.length = (T id).slots.length ∧
    ∀ i sl, (T id).slots[i]? = some sl → SlotShaped (Shaped T) sl (m.get i) := by
  constructor
  · intro h
    exact ⟨(h 1).1, fun i sl hs => slotShaped_all.1 fun n => (h (n + 1)).2 i sl hs⟩
  · intro ⟨h1, h2⟩ n
    cases n with
    | zero => trivial
    | succ n => exact ⟨h1, fun i sl hs => slotShaped_all.2 (h2 i sl hs) n⟩

theorem shaped_default (hT : ∀ id, (T id).Ok T) (id : Nat) : Shaped T id (T id).default := by
  intro n
  induction n generalizing id with
  | zero => trivial
  | succ n ih =>
    refine ⟨by simp [GDesc.default], fun i sl hs => ?_⟩
    rw [default_get hs]
    cases sl with
    | oneof alts => trivial
    | field f card =>
      cases card with
      | «always» d =>
        intro sub hsub
        cases (hT id).required f d (List.mem_of_getElem? hs) sub hsub
        exact ⟨0, _, rfl, ih sub⟩
      | optional =>
        intro sub hsub e he
        cases he
      | implicit d => trivial
      | «repeated» p => trivial
      | map u => trivial

theorem shaped_put {id i : Nat} {m : Msg} {sl : GSlot} {es : List (Nat × Val)} (h : Shaped T id m)
    (hs : (T id).slots[i]? = some sl) (he : SlotShaped (Shaped T) sl es) : Shaped T id (m.put i es) := by
  obtain ⟨h1, h2⟩ := shaped_iff.1 h
  refine shaped_iff.2 ⟨by rw [put_length, h1], fun j sl' hj => ?_⟩
  have hl : i < m.slots.length := by
    rw [h1]
    exact (List.getElem?_eq_some_iff.1 hs).1
  by_cases e : i = j
  · subst e
    rw [hs] at hj
    cases hj
    rw [get_put_self hl]
    exact he
  · rw [get_put_ne e]
    exact h2 j sl' hj

/-- A list of one value of the type. -/
def ValShaped (T : GTypes) (ty : JType) (v : Val) : Prop := ∀ id, ty = .msg id → ∃ x, v = .msg x ∧ Shaped T id x

/-- Reading texts shorter than `k` is defined. -/
def FineGen (T : GTypes) (k : Nat) (r : GReader) : Prop :=
  ∀ id m s, Shaped T id m → s.length < k → Fine (fun p => Shaped T id p.1 ∧ p.2 <:+ s) (r id m s)

theorem fine_elems_short {α : Type} {P : α → Prop} {one : List Byte → Res (α × List Byte)} {k : Nat}
    (h1 : ∀ s, s.length < k → Fine (fun p => P p.1 ∧ p.2 <:+ s) (one s)) (n : Nat) : ∀ s, s.length < k →
    Fine (fun p => (∀ x ∈ p.1, P x) ∧ p.2 <:+ s) (readElems one n s) := by
  induction n with
  | zero => exact fun s _ => ⟨fun _ h => (by cases h), List.suffix_refl s⟩
  | succ n ih =>
    intro s hk
    rw [readElems]
    refine (h1 s hk).bind fun p hp => ?_
    have next : ∀ u, u <:+ s → Fine (fun q : List α × List Byte => (∀ x ∈ q.1, P x) ∧ q.2 <:+ s) (do
        let (xs, s) ← readElems one n u
        .ok (p.1 :: xs, s)) := by
      intro u hu
      have := hu.length_le
      refine (ih u (by omega)).bind fun q hq => ⟨fun x hx => ?_, hq.2.trans hu⟩
      rcases List.mem_cons.1 hx with rfl | hx
      · exact hp.1
      · exact hq.1 x hx
    dsimp only
    split
    · exact next _ ((skipWs_suffix _).trans hp.2)
    · exact (fine_expect (by decide) _).bind fun u hu => next u (hu.1.trans ((skipWs_suffix _).trans hp.2))

variable {G : Glaze} {utf8 : List Byte → Bool} {r : GReader} {k : Nat} (L : G.Lawful)
include L

/-- What is inside the brackets is shorter by one. -/
theorem fine_list_short {α : Type} {P : α → Prop} {one : List Byte → Res (α × List Byte)}
    (h1 : ∀ s, s.length < k → Fine (fun p => P p.1 ∧ p.2 <:+ s) (one s)) {opening : Byte} (ho : opening ≠ 0) (closing : Byte)
    (s : List Byte) (hs : s.length < k + 1) :
    Fine (fun p => (∀ x ∈ p.1, P x) ∧ p.2 <:+ s) (readList G one opening closing s) := by
  unfold readList
  refine (fine_expect ho _).bind fun u hu => ?_
  have hlen : (skipWs u).length < k := by
    have a1 := (skipWs_suffix u).length_le
    have a2 := (skipWs_suffix s).length_le
    have a3 := hu.2
    omega
  refine (fine_countJson L _ _).bind fun n _ => (fine_elems_short h1 n _ hlen).bind fun p hp => ?_
  have hp2 := hp.2.trans ((skipWs_suffix u).trans (hu.1.trans (skipWs_suffix s)))
  refine ⟨hp.1, ?_⟩
  dsimp only
  split
  · exact (tail_suffix _).trans hp2
  · exact hp2

theorem fine_genKey {ty : JType} (h : ty.isKey = true) (s : List Byte) : Fine (fun p => p.2 <:+ s) (genReadKey utf8 G ty s) := by
  unfold genReadKey
  cases ty with
  | string => exact (fine_readText L _ s).bind fun p hp => hp
  | int _ _ => exact (fine_readNum L _ _ s).bind fun p hp => hp
  | bool => exact (fine_readNum L _ _ s).bind fun p hp => hp
  | float _ => cases h
  | enum _ => cases h
  | bytes => cases h
  | msg _ => cases h

omit L in
theorem fine_colon (s : List Byte) : Fine (Shorter s) (readColon s) := by
  unfold readColon
  exact (fine_expect (by decide) _).bind fun v hv => Shorter.trans (Shorter.after (skipWs_suffix s) hv) (skipWs_suffix v)

variable (hT : ∀ id, (T id).Ok T) (hr : FineGen T k r)
include hT hr

theorem fine_genVal (ty : JType) (s : List Byte) (hs : s.length < k ∨ ∀ id, ty ≠ .msg id) :
    Fine (fun p => ValShaped T ty p.1 ∧ p.2 <:+ s) (genReadVal T utf8 G r ty s) := by
  unfold genReadVal
  cases ty with
  | msg id =>
    have hs : s.length < k := by
      rcases hs with hs | hs
      · exact hs
      · exact absurd rfl (hs id)
    refine (hr id _ s (shaped_default hT id) hs).bind fun p hp => ⟨fun i e => ?_, hp.2⟩
    cases e
    exact ⟨_, rfl, hp.1⟩
  | string => exact (fine_readText L _ s).bind fun p hp => ⟨fun _ e => (by cases e), hp⟩
  | bytes => exact (fine_readText L _ s).bind fun p hp => ⟨fun _ e => (by cases e), hp⟩
  | int _ _ => exact (fine_readNum L _ _ s).bind fun p hp => ⟨fun _ e => (by cases e), hp⟩
  | float _ => exact (fine_readNum L _ _ s).bind fun p hp => ⟨fun _ e => (by cases e), hp⟩
  | bool => exact (fine_readNum L _ _ s).bind fun p hp => ⟨fun _ e => (by cases e), hp⟩
  | enum _ => exact (fine_readNum L _ _ s).bind fun p hp => ⟨fun _ e => (by cases e), hp⟩

theorem fine_genPlain (f : GName) (d : Val) {es : List (Nat × Val)} (he : SlotShaped (Shaped T) (.field f (.always d)) es)
    (s : List Byte) (hs : s.length < k) :
    Fine (fun p => ValShaped T f.ty p.1 ∧ p.2 <:+ s) (genReadPlain T utf8 G r f.ty es s) := by
  have hv := fine_genVal (utf8 := utf8) L hT hr f.ty s (.inl hs)
  unfold genReadPlain
  cases hty : f.ty with
  | msg id =>
    obtain ⟨a, x, rfl, hx⟩ := he id hty
    refine (hr id x s hx hs).bind fun p hp => ⟨fun i e => ?_, hp.2⟩
    cases e
    exact ⟨_, rfl, hp.1⟩
  | string =>
    exact (fine_shortens (L.safeStr _)).bind fun p hp => ⟨fun _ e => (by cases e), hp.1.trans (skipWs_suffix s)⟩
  | enum E =>
    dsimp only
    split
    · rw [hty] at hv
      unfold genReadVal readNum at hv
      exact hv
    · trivial
  | bytes => rw [hty] at hv; exact hv
  | int _ _ => rw [hty] at hv; exact hv
  | float _ => rw [hty] at hv; exact hv
  | bool => rw [hty] at hv; exact hv

theorem fine_genEntry {D : GDesc} (hD : ∃ f kc x xc, D.slots = [.field f kc, .field x xc] ∧ f.ty.isKey = true)
    (s : List Byte) (hs : s.length < k) : Fine (fun p => True ∧ Shorter s p.2) (genReadEntry T utf8 G r D s) := by
  obtain ⟨f, kc, x, xc, e, hk⟩ := hD
  unfold genReadEntry
  rw [e]
  refine (fine_genKey L hk s).bind fun p hp => (fine_colon p.2).bind fun u hu => ?_
  have hsu : Shorter s u := Shorter.after hp hu
  refine (fine_genVal L hT hr x.ty u (.inl (by have := hsu.2; omega))).bind fun q hq => ⟨trivial, hsu.trans hq.2⟩

theorem fine_genMap {D : GDesc} (hD : ∃ f kc x xc, D.slots = [.field f kc, .field x xc] ∧ f.ty.isKey = true) (fuel : Nat) :
    ∀ (first : Bool) (es : List (Nat × Val)) (s : List Byte), s.length < k → s.length < fuel →
      Fine (fun p => p.2 <:+ s) (genReadMap T utf8 G r D fuel first es s) := by
  induction fuel with
  | zero => intro _ _ s _ h; omega
  | succ fuel ih =>
    intro first es s hk hs
    rw [genReadMap]
    split
    · exact tail_suffix s
    · have next : ∀ u, u <:+ s → Fine (fun p : List (Nat × Val) × List Byte => p.2 <:+ s) (do
          let (e, s) ← genReadEntry T utf8 G r D u
          genReadMap T utf8 G r D fuel false (insertOrAssign e es) (skipWs s)) := by
        intro u hu
        have hl := hu.length_le
        refine (fine_genEntry L hT hr hD u (by omega)).bind fun p hp => ?_
        have hsh : Shorter s (skipWs p.2) := Shorter.after hu (hp.2.trans (skipWs_suffix _))
        refine (ih false _ _ (by have := hsh.2; omega) (by have := hsh.2; omega)).mono fun q hq => hq.trans hsh.1
      dsimp only
      split
      · exact next s (List.suffix_refl s)
      · exact (fine_expect (by decide) s).bind fun u hu => next _ ((skipWs_suffix u).trans hu.1)

theorem fine_genList {id : Nat} {f : GName} {card : Card} (hf : .field f card ∈ (T id).slots)
    (hc : (∃ p, card = .repeated p) ∨ ∃ u, card = .map u) (es : List (Nat × Val)) (s : List Byte) (hs : s.length < k + 1) :
    Fine (fun p => p.2 <:+ s) (genReadList T utf8 G r f card es s) := by
  unfold genReadList
  rcases hc with ⟨p, rfl⟩ | ⟨u, rfl⟩
  · exact (fine_list_short L (fun s h => fine_genVal L hT hr f.ty s (.inl h)) (by decide) _ s hs).bind fun p hp => hp.2
  · obtain ⟨eid, kf, kc, x, xc, hty, hsl, hk⟩ := (hT id).maps f u hf
    simp only [hty]
    split
    · refine (fine_expect (by decide) _).bind fun v hv => ?_
      have a1 := (skipWs_suffix s).length_le
      have a2 := (skipWs_suffix v).length_le
      have a3 := hv.2
      refine (fine_genMap L hT hr ⟨kf, kc, x, xc, hsl, hk⟩ _ true es _ (by omega) (by omega)).mono fun q hq => ?_
      exact hq.trans ((skipWs_suffix v).trans (hv.1.trans (skipWs_suffix s)))
    · exact (fine_list_short (P := fun _ => True) L (fun s h => (fine_genEntry L hT hr ⟨kf, kc, x, xc, hsl, hk⟩ s h).mono
        fun p hp => ⟨trivial, hp.2.1⟩) (by decide) _ s hs).bind fun p hp => hp.2

omit L hr in
theorem initial_shaped {id : Nat} {sl : GSlot} (hf : sl ∈ (T id).slots) : SlotShaped (Shaped T) sl sl.initial := by
  cases sl with
  | oneof alts => trivial
  | field f card =>
    cases card with
    | «always» d =>
      intro sub hsub
      cases (hT id).required f d hf sub hsub
      exact ⟨0, _, rfl, shaped_default hT sub⟩
    | optional =>
      intro sub hsub e he
      cases he
    | implicit d => trivial
    | «repeated» p => trivial
    | map u => trivial

theorem fine_genField {id : Nat} {f : GName} {card : Card} (hf : .field f card ∈ (T id).slots) {es : List (Nat × Val)}
    (he : SlotShaped (Shaped T) (.field f card) es) (s : List Byte) (hs : s.length < k) :
    Fine (fun p => SlotShaped (Shaped T) (.field f card) p.1 ∧ p.2 <:+ s) (genReadField T utf8 G r f card es s) := by
  have hini := initial_shaped hT hf
  unfold genReadField
  cases card with
  | «always» d =>
    refine (fine_genPlain L hT hr f d he s hs).bind fun p hp => ⟨fun sub hsub => ?_, hp.2⟩
    obtain ⟨x, e, hx⟩ := hp.1 sub hsub
    exact ⟨0, x, by rw [e], hx⟩
  | implicit d =>
    refine (fine_readNull s).bind fun o ho => ?_
    cases o with
    | some u => exact ⟨hini, ho.1⟩
    | none => exact (fine_genVal L hT hr f.ty s (.inl hs)).bind fun p hp => ⟨trivial, hp.2⟩
  | optional =>
    refine (fine_readNull s).bind fun o ho => ?_
    cases o with
    | some u => exact ⟨hini, ho.1⟩
    | none =>
      have hopt : Fine (fun p => ValShaped T f.ty p.1 ∧ p.2 <:+ s) (genReadOptional T utf8 G r f.ty es s) := by
        unfold genReadOptional
        split
        · rename_i sub a m l hty
          refine (hr sub m s (he sub hty (a, .msg m) (by simp) m rfl) hs).bind fun p hp => ⟨fun i e => ?_, hp.2⟩
          rw [hty] at e
          cases e
          exact ⟨_, rfl, hp.1⟩
        · exact fine_genVal L hT hr f.ty s (.inl hs)
      refine hopt.bind fun p hp => ⟨fun sub hsub e hm x hx => ?_, hp.2⟩
      obtain ⟨y, e', hy⟩ := hp.1 sub hsub
      cases List.mem_singleton.1 hm
      simp only at hx
      rw [hx] at e'
      cases e'
      exact hy
  | «repeated» p =>
    refine (fine_readNull s).bind fun o ho => ?_
    cases o with
    | some u => exact ⟨hini, ho.1⟩
    | none => exact (fine_genList L hT hr hf (.inl ⟨p, rfl⟩) es s (by omega)).mono fun p hp => ⟨trivial, hp⟩
  | map u =>
    refine (fine_readNull s).bind fun o ho => ?_
    cases o with
    | some u => exact ⟨hini, ho.1⟩
    | none => exact (fine_genList L hT hr hf (.inr ⟨u, rfl⟩) es s (by omega)).mono fun p hp => ⟨trivial, hp⟩

theorem fine_genSlot {id : Nat} {sl : GSlot} (hf : sl ∈ (T id).slots) {a : Nat} {f : GName} (ha : sl.alts[a]? = some f)
    {es : List (Nat × Val)} (he : SlotShaped (Shaped T) sl es) (s : List Byte) (hs : s.length < k) :
    Fine (fun p => SlotShaped (Shaped T) sl p.1 ∧ p.2 <:+ s) (genReadSlot T utf8 G r sl a es s) := by
  unfold genReadSlot
  cases sl with
  | field f card => exact fine_genField L hT hr hf he s hs
  | oneof alts =>
    refine (fine_readNull s).bind fun o ho => ?_
    cases o with
    | some u => exact ⟨trivial, ho.1⟩
    | none =>
      have ha : alts[a]? = some f := ha
      simp only [ha]
      exact (fine_genVal L hT hr f.ty s (.inl hs)).bind fun p hp => ⟨trivial, hp.2⟩

omit L hT hr in
theorem find_alts {key : List Byte} {sl : GSlot} {a : Nat} (h : sl.find key = some a) : ∃ f, sl.alts[a]? = some f := by
  cases sl with
  | field f card =>
    simp only [GSlot.find] at h
    split at h
    · cases h
      exact ⟨f, rfl⟩
    · cases h
  | oneof alts =>
    obtain ⟨h1, _⟩ := List.findIdx?_eq_some_iff_getElem.1 h
    exact ⟨_, List.getElem?_eq_getElem h1⟩

omit L hT hr in
theorem findKey_found {key : List Byte} : ∀ {slots : List GSlot} {k i a : Nat} {sl : GSlot}, findKey key k slots = some (i, a, sl) →
    ∃ n, i = k + n ∧ slots[n]? = some sl ∧ ∃ f, sl.alts[a]? = some f
  | [], _, _, _, _, h => by cases h
  | s0 :: slots, k, i, a, sl, h => by
    rw [findKey] at h
    split at h
    · rename_i b hb
      cases h
      exact ⟨0, rfl, rfl, find_alts hb⟩
    · obtain ⟨n, rfl, h1, h2⟩ := findKey_found h
      exact ⟨n + 1, by omega, h1, h2⟩

theorem fine_genMembers (id : Nat) (fuel : Nat) :
    ∀ (first : Bool) (m : Msg) (s : List Byte), Shaped T id m → s.length < k → s.length < fuel →
      Fine (fun p => Shaped T id p.1 ∧ p.2 <:+ s) (genReadMembers T utf8 G r (T id) fuel first m s) := by
  induction fuel with
  | zero => intro _ _ s _ _ h; omega
  | succ fuel ih =>
    intro first m s h hk hs
    rw [genReadMembers]
    split
    · exact ⟨h, tail_suffix s⟩
    · have next : ∀ u, u <:+ s → Fine (fun p => Shaped T id p.1 ∧ p.2 <:+ s) (do
          let (key, s) ← G.readView u
          let s ← readColon s
          match findKey key 0 (T id).slots with
          | none => .err .badMessage
          | some (i, a, sl) => do
            let (es, s) ← genReadSlot T utf8 G r sl a (m.get i) s
            genReadMembers T utf8 G r (T id) fuel false (m.put i es) (skipWs s)) := fun u hu => ?_
      · dsimp only
        split
        · exact next s (List.suffix_refl s)
        · exact (fine_expect (by decide) s).bind fun u hu => next _ ((skipWs_suffix u).trans hu.1)
      refine (fine_shortens (L.safeView u)).bind fun p hp => (fine_colon p.2).bind fun v hv => ?_
      have hsv : Shorter s v := Shorter.after hu (hp.trans hv.1)
      split
      · trivial
      · rename_i i a sl hfind
        obtain ⟨n, e, h1, f, h2⟩ := findKey_found hfind
        have e : i = n := by omega
        subst e
        refine (fine_genSlot L hT hr (List.mem_of_getElem? h1) h2 ((shaped_iff.1 h).2 i sl h1) v
          (by have := hsv.2; omega)).bind fun q hq => ?_
        have hsh : Shorter s (skipWs q.2) := hsv.trans ((skipWs_suffix _).trans hq.2)
        refine (ih false _ _ (shaped_put h h1 hq.1) (by have := hsh.2; omega) (by have := hsh.2; omega)).mono fun w hw => ?_
        exact ⟨hw.1, hw.2.trans hsh.1⟩

/-- The only field of a message. -/
theorem fine_genSole {id : Nat} {f : GName} {card : Card} (hs : (T id).slots = [.field f card])
    (hc : (∃ p, card = .repeated p) ∨ ∃ u, card = .map u) {m : Msg} (hm : Shaped T id m) (s : List Byte) (hl : s.length < k + 1) :
    Fine (fun p => Shaped T id p.1 ∧ p.2 <:+ s) (genReadSole T utf8 G r id m s) := by
  unfold genReadSole
  rw [hs]
  refine (fine_genList L hT hr (id := id) (by rw [hs]; simp) hc (m.get 0) s hl).bind fun p hp => ⟨?_, hp⟩
  refine shaped_put hm (show (T id).slots[0]? = some (.field f card) by rw [hs]; rfl) ?_
  rcases hc with ⟨p, rfl⟩ | ⟨u, rfl⟩ <;> trivial

omit hT hr in
theorem fine_genTwo {id : Nat} {fa fb : GName} {ca cb : Card} (hsl : (T id).slots = [.field fa ca, .field fb cb])
    (ha : ∀ i, fa.ty ≠ .msg i) (hb : ∀ i, fb.ty ≠ .msg i) (decode : List Byte → Option (Int × Int)) {m : Msg}
    (hm : Shaped T id m) (s : List Byte) : Fine (fun p => Shaped T id p.1 ∧ p.2 <:+ s) (genReadTwo G decode m s) := by
  have shaped : ∀ {f : GName} {c : Card} {x : BitVec 64}, (∀ i, f.ty ≠ .msg i) → SlotShaped (Shaped T) (.field f c) [(0, .num x)] := by
    intro f c x hf
    cases c with
    | «always» d => exact fun i e => absurd e (hf i)
    | optional => exact fun i e => absurd e (hf i)
    | implicit d => trivial
    | «repeated» p => trivial
    | map u => trivial
  unfold genReadTwo
  refine (fine_shortens (L.safeView _)).bind fun p hp => ?_
  dsimp only
  split
  · refine ⟨?_, hp.1.trans (skipWs_suffix s)⟩
    refine shaped_put (shaped_put hm (show (T id).slots[0]? = some (.field fa ca) by rw [hsl]; rfl) (shaped ha))
      (show (T id).slots[1]? = some (.field fb cb) by rw [hsl]; rfl) (shaped hb)
  · trivial

theorem fine_genBody (hA : ∀ id, (T id).wk ≠ .any) : FineGen T (k + 1) (genReadBody T utf8 G r) := by
  intro id m s hm hs
  have hD := hT id
  unfold genReadBody
  cases hwk : (T id).wk with
  | any => exact absurd hwk (hA id)
  | none =>
    refine (fine_expect (by decide) _).bind fun u hu => ?_
    have a1 := (skipWs_suffix s).length_le
    have a2 := (skipWs_suffix u).length_le
    have a3 := hu.2
    refine (fine_genMembers L hT hr id _ true m _ hm (by omega) (by omega)).mono fun p hp => ⟨hp.1, ?_⟩
    exact hp.2.trans ((skipWs_suffix u).trans (hu.1.trans (skipWs_suffix s)))
  | timestamp =>
    obtain ⟨fa, fb, ca, cb, hsl, ta, tb⟩ := hD.timestamps (.inl hwk)
    exact fine_genTwo L hsl (by simp [ta]) (by simp [tb]) _ hm s
  | duration =>
    obtain ⟨fa, fb, ca, cb, hsl, ta, tb⟩ := hD.timestamps (.inr hwk)
    exact fine_genTwo L hsl (by simp [ta]) (by simp [tb]) _ hm s
  | fieldMask =>
    obtain ⟨f, p, hsl, _⟩ := hD.masks hwk
    simp only
    unfold genReadMask
    refine (fine_shortens (L.safeStr _)).bind fun p hp => ⟨?_, hp.1.trans (skipWs_suffix s)⟩
    exact shaped_put hm (show (T id).slots[0]? = some (.field f (.repeated _)) by rw [hsl]; rfl) trivial
  | value =>
    obtain ⟨nul, num, str, bool, struct, list, E, sid, lid, sf, sc, lf, lc, hsl, t1, t2, t3, t4, t5, t6, s1, t7, l1⟩ := hD.values hwk
    have h0 : (T id).slots[0]? = some (.oneof [nul, num, str, bool, struct, list]) := by rw [hsl]; rfl
    have hws := skipWs_suffix s
    have hlen := hws.length_le
    have plain : ∀ {ty : JType} {a : Nat}, (∀ i, ty ≠ .msg i) → Fine (fun p => Shaped T id p.1 ∧ p.2 <:+ s) (do
        let (v, s) ← genReadAlt T utf8 G r ty (skipWs s)
        .ok (m.put 0 [(a, v)], s)) := by
      intro ty a hty
      have : genReadAlt T utf8 G r ty (skipWs s) = genReadVal T utf8 G r ty (skipWs s) := by
        unfold genReadAlt
        split
        · exact absurd rfl (hty _)
        · rfl
      rw [this]
      exact (fine_genVal L hT hr ty _ (.inr hty)).bind fun p hp => ⟨shaped_put hm h0 trivial, hp.2.trans hws⟩
    have sole : ∀ {sub : Nat} {f : GName} {card : Card} {a : Nat}, (T sub).slots = [.field f card] →
        ((∃ p, card = .repeated p) ∨ ∃ u, card = .map u) → Fine (fun p => Shaped T id p.1 ∧ p.2 <:+ s) (do
        let (v, s) ← genReadAlt T utf8 G r (.msg sub) (skipWs s)
        .ok (m.put 0 [(a, v)], s)) := by
      intro sub f card a h1 h2
      have : Fine (fun p : Val × List Byte => p.2 <:+ skipWs s) (genReadAlt T utf8 G r (.msg sub) (skipWs s)) :=
        (fine_genSole L hT hr h1 h2 (shaped_default hT sub) (skipWs s) (by omega)).bind fun p hp => hp.2
      exact this.bind fun p hp => ⟨shaped_put hm h0 trivial, hp.trans hws⟩
    simp only
    unfold genReadValue
    simp only [hsl]
    split
    · exact (fine_expectText _ _).bind fun u hu => ⟨shaped_put hm h0 trivial, hu.trans hws⟩
    · rename_i a hne hval
      match a, hval with
      | 0, _ => exact absurd rfl hne
      | 1, _ => exact plain (ty := num.ty) (by simp [t3])
      | 2, _ => exact plain (ty := str.ty) (by simp [t4])
      | 3, _ => exact plain (ty := bool.ty) (by simp [t5])
      | 4, _ =>
        simp only [List.getElem?_cons_succ, List.getElem?_cons_zero, t6]
        exact sole s1 (.inr ⟨_, rfl⟩)
      | 5, _ =>
        simp only [List.getElem?_cons_succ, List.getElem?_cons_zero, t7]
        exact sole l1 (.inl ⟨_, rfl⟩)
      | a + 6, hval =>
        unfold valueAlt at hval
        repeat' split at hval
        all_goals simp at hval
    · trivial
  | struct =>
    obtain ⟨f, u, _, _, _, _, _, _, hsl, _⟩ := hD.structs hwk
    exact fine_genSole L hT hr hsl (.inr ⟨u, rfl⟩) hm s hs
  | listValue =>
    obtain ⟨f, p, hsl⟩ := hD.lists hwk
    exact fine_genSole L hT hr hsl (.inl ⟨p, rfl⟩) hm s hs
  | wrapper =>
    obtain ⟨f, d, hsl⟩ := hD.wrappers hwk
    simp only
    unfold genReadWrapper
    rw [hsl]
    refine (fine_genVal L hT hr f.ty s (.inr (hD.implicits f d (by rw [hsl]; simp)))).bind fun p hp => ⟨?_, hp.2⟩
    exact shaped_put hm (show (T id).slots[0]? = some (.field f (.implicit d)) by rw [hsl]; rfl) trivial

end

/-- Reading any text is defined if there is room for as many levels as there are bytes. -/
theorem fine_genLevel {T : GTypes} {G : Glaze} {utf8 : List Byte → Bool} (L : G.Lawful) (hT : ∀ id, (T id).Ok T)
    (hA : ∀ id, (T id).wk ≠ .any) : ∀ d, FineGen T d (genReadLevel T utf8 G d) := by
  intro d
  induction d with
  | zero => intro _ _ s _ h; omega
  | succ d ih =>
    rw [genReadLevel]
    exact fine_genBody L hT ih hA

end HppProto.Json
