import Verif.Proofs.JsonRead
import Verif.Proofs.DynamicHistory

/-! # Reading arbitrary text: nothing undefined -/

namespace HppProto.Json
open HppProto HppProto.Spec

/-- A value with the property, or an error. -/
def Fine {α : Type} (P : α → Prop) : Res α → Prop
  | .ok a => P a
  | .err _ => True
  | _ => False

theorem Fine.bind {α β : Type} {P : α → Prop} {Q : β → Prop} {r : Res α} {f : α → Res β} (h : Fine P r)
    (hf : ∀ a, P a → Fine Q (f a)) : Fine Q (r >>= f) := by
  cases r with
  | ok a => exact hf a h
  | err e => trivial
  | ub => exact h.elim
  | throw => exact h.elim
  | stuck => exact h.elim

theorem Fine.mono {α : Type} {P Q : α → Prop} {r : Res α} (h : Fine P r) (hf : ∀ a, P a → Q a) : Fine Q r := by
  cases r with
  | ok a => exact hf a h
  | err e => trivial
  | ub => exact h.elim
  | throw => exact h.elim
  | stuck => exact h.elim

/-- `u` is a rest of `s`, shorter than it. -/
def Shorter (s u : List Byte) : Prop := u <:+ s ∧ u.length < s.length

theorem shorter_of {p s u : List Byte} (hp : p ≠ []) (h : s = p ++ u) : Shorter s u := by
  subst h
  refine ⟨⟨p, rfl⟩, ?_⟩
  have := List.length_pos_iff.2 hp
  simp
  omega

theorem Shorter.trans {a b c : List Byte} (h : Shorter a b) (h' : c <:+ b) : Shorter a c := by
  have := h'.length_le
  exact ⟨h'.trans h.1, by have := h.2; omega⟩

theorem Shorter.after {a b c : List Byte} (h : b <:+ a) (h' : Shorter b c) : Shorter a c := by
  have := h.length_le
  exact ⟨h'.1.trans h, by have := h'.2; omega⟩

theorem fine_shortens {α : Type} {s : List Byte} {r : Res (α × List Byte)} (h : Shortens s r) :
    Fine (fun p => Shorter s p.2) r := by
  rcases h with ⟨x, u, rfl, p, hp, e⟩ | rfl
  · exact shorter_of hp e
  · trivial

theorem fine_skips {s : List Byte} {r : Res (List Byte)} (h : Skips s r) : Fine (Shorter s) r := by
  rcases h with ⟨u, rfl, p, hp, e⟩ | rfl
  · exact shorter_of hp e
  · trivial

theorem skipWs_suffix (s : List Byte) : skipWs s <:+ s := List.dropWhile_suffix _

theorem tail_suffix (s : List Byte) : s.tail <:+ s := List.tail_suffix s

theorem fine_step {s : List Byte} (h : look s ≠ 0) : Fine (Shorter s) (step s) := by
  cases s with
  | nil => exact absurd rfl h
  | cons c s => exact shorter_of (p := [c]) (by simp) rfl

theorem fine_expect {c : Byte} (hc : c ≠ 0) (s : List Byte) : Fine (Shorter s) (expect c s) := by
  unfold expect
  split
  · rename_i h
    exact fine_step (by rw [h]; exact hc)
  · trivial

theorem fine_expectText (t s : List Byte) : Fine (fun u => u <:+ s) (expectText t s) := by
  unfold expectText
  split
  · exact List.drop_suffix _ _
  · trivial

theorem fine_readNull (s : List Byte) : Fine (fun o : Option (List Byte) =>
    match o with
    | some u => u <:+ s ∧ look (skipWs s) = 0x6e
    | none => look (skipWs s) ≠ 0x6e) (readNull s) := by
  unfold readNull
  simp only
  split
  · rename_i h
    refine (fine_step (by rw [h]; decide)).bind fun u hu => (fine_expectText _ u).bind fun v hv => ?_
    exact ⟨hv.trans (hu.1.trans (skipWs_suffix s)), h⟩
  · rename_i h
    exact h

theorem fine_readBool (s : List Byte) : Fine (fun p => p.2 <:+ s) (readBool s) := by
  unfold readBool
  split
  · exact (fine_expectText _ s).bind fun u hu => hu
  · exact (fine_expectText _ s).bind fun u hu => hu

theorem fine_inQuotes {α : Type} {q : Bool} {r : List Byte → Res (α × List Byte)}
    (hr : ∀ s, Fine (fun p => p.2 <:+ s) (r s)) (s : List Byte) : Fine (fun p => p.2 <:+ s) (inQuotes q r s) := by
  unfold inQuotes
  split
  · refine (fine_expect (by decide) s).bind fun u hu => (hr u).bind fun p hp =>
      (fine_expect (by decide) p.2).bind fun v hv => ?_
    exact hv.1.trans (hp.trans hu.1)
  · exact hr s

section
variable {T : JTypes} {G : Glaze} {utf8 : List Byte → Bool} (L : G.Lawful)
include L

theorem fine_readNum (q : Bool) (ty : JType) (s : List Byte) : Fine (fun p => p.2 <:+ s) (readNum G q ty s) := by
  have hws := skipWs_suffix s
  unfold readNum
  simp only
  split
  · refine (fine_inQuotes (fun u => (fine_shortens (L.safeInt _ _ u)).mono fun _ h => h.1) _).bind fun p hp => ?_
    exact hp.trans hws
  · exact (fine_shortens (L.safeFloat _ _)).mono fun _ h => h.1.trans hws
  · exact (fine_inQuotes fine_readBool _).mono fun _ h => h.trans hws
  · unfold readEnum
    split
    · exact (fine_shortens (L.safeInt _ _ _)).bind fun p h => h.1.trans hws
    · refine (fine_shortens (L.safeView _)).bind fun p h => ?_
      obtain ⟨name, u⟩ := p
      dsimp only
      split
      · exact h.1.trans hws
      · trivial
  · trivial

theorem fine_readText (ty : JType) (s : List Byte) : Fine (fun p => p.2 <:+ s) (readText utf8 G ty s) := by
  have hws := skipWs_suffix s
  unfold readText
  simp only
  split
  · refine (fine_shortens (L.safeView _)).bind fun p h => ?_
    split
    · exact h.1.trans hws
    · trivial
  · refine (fine_shortens (L.safeStr _)).bind fun p h => ?_
    split
    · exact h.1.trans hws
    · trivial

theorem fine_countLoop {stop : Byte} (fuel : Nat) : ∀ (n : Nat) (s : List Byte), s.length < fuel →
    Fine (fun _ => True) (countLoopJson G stop fuel n s) := by
  induction fuel with
  | zero => intro n s h; omega
  | succ fuel ih =>
    intro n s h
    rw [countLoopJson]
    have next : ∀ k u, Shorter s u → Fine (fun _ => True) (countLoopJson G stop fuel k u) :=
      fun k u hu => ih k u (by have := hu.2; omega)
    split
    · rename_i e
      exact (fine_step (by rw [e]; decide)).bind fun u hu => next _ u hu
    split
    · exact (fine_skips (L.safeSkipComment s)).bind fun u hu => next _ u hu
    split
    · rename_i e
      exact (fine_step (by rw [e]; decide)).bind fun u hu => (fine_skips (L.safeSkipObj u)).bind fun v hv =>
        next _ v (hu.trans hv.1)
    split
    · rename_i e
      exact (fine_step (by rw [e]; decide)).bind fun u hu => (fine_skips (L.safeSkipArr u)).bind fun v hv =>
        next _ v (hu.trans hv.1)
    split
    · exact (fine_skips (L.safeSkipStr s)).bind fun u hu => next _ u hu
    split
    · trivial
    split
    · trivial
    · rename_i e _
      exact (fine_step e).bind fun u hu => next _ u hu

theorem fine_countJson (stop : Byte) (s : List Byte) : Fine (fun _ => True) (countJson G stop s) := by
  unfold countJson
  simp only
  split
  · trivial
  · exact fine_countLoop L _ _ _ (by omega)

omit L in
theorem fine_readElems {α : Type} {P : α → Prop} {one : List Byte → Res (α × List Byte)}
    (h1 : ∀ s, Fine (fun p => P p.1 ∧ p.2 <:+ s) (one s)) (n : Nat) : ∀ s,
    Fine (fun p => (∀ x ∈ p.1, P x) ∧ p.2 <:+ s) (readElems one n s) := by
  induction n with
  | zero => exact fun s => ⟨fun _ h => (by cases h), List.suffix_refl s⟩
  | succ n ih =>
    intro s
    rw [readElems]
    refine (h1 s).bind fun p hp => ?_
    have next : ∀ u, u <:+ s → Fine (fun q : List α × List Byte => (∀ x ∈ q.1, P x) ∧ q.2 <:+ s) (do
        let (xs, s) ← readElems one n u
        .ok (p.1 :: xs, s)) := by
      intro u hu
      refine (ih u).bind fun q hq => ⟨fun x hx => ?_, hq.2.trans hu⟩
      rcases List.mem_cons.1 hx with rfl | hx
      · exact hp.1
      · exact hq.1 x hx
    dsimp only
    split
    · exact next _ ((skipWs_suffix _).trans hp.2)
    · exact (fine_expect (by decide) _).bind fun u hu => next u (hu.1.trans ((skipWs_suffix _).trans hp.2))

theorem fine_readList {α : Type} {P : α → Prop} {one : List Byte → Res (α × List Byte)}
    (h1 : ∀ s, Fine (fun p => P p.1 ∧ p.2 <:+ s) (one s)) {opening : Byte} (ho : opening ≠ 0) (closing : Byte) (s : List Byte) :
    Fine (fun p => (∀ x ∈ p.1, P x) ∧ p.2 <:+ s) (readList G one opening closing s) := by
  unfold readList
  refine (fine_expect ho _).bind fun u hu => ?_
  refine (fine_countJson L _ _).bind fun n _ => (fine_readElems h1 n _).bind fun p hp => ?_
  have hp2 := hp.2.trans ((skipWs_suffix u).trans (hu.1.trans (skipWs_suffix s)))
  refine ⟨hp.1, ?_⟩
  dsimp only
  split
  · exact (tail_suffix _).trans hp2
  · exact hp2

/-- Types without the two traps: no `Any`, and no repeated `Value` or `ListValue` outside
`ListValue`. -/
structure JTypes.NoTrap (T : JTypes) : Prop where
  any : ∀ id, (T id).wk ≠ .any
  lists : ∀ id, (T id).entry = true ∨ (T id).wk ≠ .listValue → ∀ f ∈ (T id).fields, f.dyn.repeated = true →
    ∀ t, f.ty = .msg t → (T t).wk ≠ .value ∧ (T t).wk ≠ .listValue

/-- Is the text, read as a message of the type, taken for `null` of a repeated `Value`? -/
def listNull (T : JTypes) (id : Nat) (s : List Byte) : Prop :=
  (T id).entry = false ∧ (T id).wk = .listValue ∧ look (skipWs s) = 0x6e

def FineReader (T : JTypes) (r : JReader) : Prop :=
  ∀ id m s, DynWF T.dyn False id m → ¬ listNull T id s → Fine (fun p => DynWF T.dyn False id p.1 ∧ p.2 <:+ s) (r id m s)

variable (hT : ∀ id, (T id).Ok T)
include hT

omit L in
theorem tied_cases {id : Nat} {f : JField} (hf : f ∈ (T id).fields) :
    (∃ t, f.ty = .msg t ∧ f.dyn.kind.msgType = some t) ∨ ((f.ty = .string ∨ f.ty = .bytes) ∧ f.dyn.kind.isStr = true) ∨
      ((∀ t, f.ty ≠ .msg t) ∧ f.ty ≠ .string ∧ f.ty ≠ .bytes ∧ f.dyn.kind.isNum = true) := by
  have := (hT id).tied f hf
  unfold JField.tied at this
  cases e : f.ty <;> rw [e] at this <;> simp_all

omit L in
theorem wf_dyn : ∀ id, (T.dyn id).Ok := fun id => (hT id).dyn

omit L in
theorem wf_empty (id : Nat) : DynWF T.dyn False id (T id).dyn.empty := DynWF.empty (wf_dyn hT) id

omit L in
theorem elements_of {id : Nat} {f : JField} (hf : f ∈ (T id).fields) (hr : f.dyn.repeated = true) {m : DynMsg}
    (h : DynWF T.dyn False id m) :
    (f.dyn.kind.isNum = true → ∃ vs, f.dyn.elements m = .nums vs ∧ none ∉ vs) ∧
    (f.dyn.kind.isStr = true → ∃ vs, f.dyn.elements m = .strs vs) ∧
    (∀ t, f.dyn.kind.msgType = some t → ∃ vs, f.dyn.elements m = .msgs vs ∧ ∀ v ∈ vs, DynWF T.dyn False t v) := by
  have hmem : f.dyn ∈ (T.dyn id).fields := dyn_mem (hT id) hf
  have hlive : f.dyn.live m := .inl ((wf_dyn hT id).singularMembers _ hmem hr)
  have hfit := h.fits _ hmem hlive
  have hsub := h.subs _ hmem hlive
  unfold DynField.fits at hfit
  rw [if_pos hr] at hfit
  unfold DynField.elements
  simp only
  generalize f.dyn.storage m = st at hfit hsub
  obtain ⟨w, c⟩ := st
  refine ⟨fun hk => ?_, fun hk => ?_, fun t hk => ?_⟩
  · rw [if_pos hk]
    cases c with
    | zero => exact ⟨[], by simp_all, by simp⟩
    | nums vs =>
      obtain ⟨_, h2, h3⟩ := hfit
      replace h2 : w ≤ vs.length := h2
      refine ⟨vs.take w, by simp [h2], fun hm => ?_⟩
      rcases h3 with h3 | h3
      · exact h3
      · exact h3 (List.mem_of_mem_take hm)
    | _ => first
      | exact hfit.elim
      | (rcases kind_cases f.dyn.kind with ⟨h1, h2, h3⟩ | ⟨h1, h2, h3⟩ | ⟨h1, h2, h3⟩ <;> simp_all)
  · have hn : f.dyn.kind.isNum = false := by
      rcases kind_cases f.dyn.kind with ⟨h1, h2, h3⟩ | ⟨h1, h2, h3⟩ | ⟨h1, h2, h3⟩ <;> simp_all
    rw [if_neg (by simp [hn]), if_pos hk]
    cases c with
    | zero => exact ⟨[], by simp_all⟩
    | strs vs =>
      obtain ⟨_, h2⟩ := hfit
      replace h2 : w ≤ vs.length := h2
      exact ⟨vs.take w, by simp [h2]⟩
    | _ => first
      | exact hfit.elim
      | (rcases kind_cases f.dyn.kind with ⟨h1, h2, h3⟩ | ⟨h1, h2, h3⟩ | ⟨h1, h2, h3⟩ <;> simp_all)
  · have hn : f.dyn.kind.isNum = false ∧ f.dyn.kind.isStr = false := by
      rcases kind_cases f.dyn.kind with ⟨h1, h2, h3⟩ | ⟨h1, h2, h3⟩ | ⟨h1, h2, h3⟩ <;> simp_all
    rw [if_neg (by simp [hn]), if_neg (by simp [hn])]
    cases c with
    | zero => exact ⟨[], by simp_all, by simp⟩
    | msgs vs =>
      obtain ⟨_, h2⟩ := hfit
      replace h2 : w ≤ vs.length := h2
      exact ⟨vs.take w, by simp [h2], fun v hv => hsub t hk vs rfl v (List.mem_of_mem_take hv)⟩
    | _ => first
      | exact hfit.elim
      | (rcases kind_cases f.dyn.kind with ⟨h1, h2, h3⟩ | ⟨h1, h2, h3⟩ | ⟨h1, h2, h3⟩ <;> simp_all)

variable {r : JReader} (hr : FineReader T r)
include hr

theorem fine_readRepeated {id : Nat} {f : JField} (hf : f ∈ (T id).fields) (rep : f.dyn.repeated = true) {m : DynMsg}
    (h : DynWF T.dyn False id m) (hlist : ∀ t, f.ty = .msg t → (T t).wk ≠ .listValue) (s : List Byte) :
    Fine (fun p => DynWF T.dyn False id p.1 ∧ p.2 <:+ s) (readRepeated T utf8 G r f m s) := by
  have hmem : f.dyn ∈ (T.dyn id).fields := dyn_mem (hT id) hf
  obtain ⟨e1, e2, e3⟩ := elements_of hT hf rep h
  unfold readRepeated
  rcases tied_cases hT hf with ⟨t, ht, hk⟩ | ⟨ht, hk⟩ | ⟨ht1, ht2, ht3, hk⟩
  · rw [ht]
    simp only
    have hone : ∀ u, Fine (fun p => DynWF T.dyn False t p.1 ∧ p.2 <:+ u) (r t (T t).dyn.empty u) :=
      fun u => hr t _ u (wf_empty hT t) (fun hl => hlist t ht hl.2.1)
    obtain ⟨vs, ev, hv⟩ := e3 t hk
    simp only [ev]
    have next : ∀ p : List DynMsg × List Byte, ((∀ x ∈ p.1, DynWF T.dyn False t x) ∧ p.2 <:+ s) →
        Fine (fun p => DynWF T.dyn False id p.1 ∧ p.2 <:+ s)
          (.ok (f.dyn.store m (vs.length + p.1.length, .msgs (vs ++ p.1)), p.2)) := fun p hp => ?_
    · split
      · exact (fine_readList L hone (by decide) _ s).bind next
      · exact (fine_readList L hone (by decide) _ s).bind next
    refine ⟨h.storeRep (wf_dyn hT) hmem rep _ _ ?_ ?_, hp.2⟩
    · unfold DynField.fits
      rw [if_pos rep]
      exact ⟨by simp [hk], by simp⟩
    · intro sid hsid ws ew v hvm
      cases ew
      rw [hk] at hsid
      cases hsid
      rcases List.mem_append.1 hvm with hvm | hvm
      · exact hv v hvm
      · exact hp.1 v hvm
  · obtain ⟨vs, ev⟩ := e2 hk
    have hl := fine_readList L (P := fun _ => True) (one := readText utf8 G f.ty) (opening := 0x5b)
      (fun u => (fine_readText L f.ty u).mono fun _ h => ⟨trivial, h⟩) (by decide) 0x5d s
    have hgoal : Fine (fun p => DynWF T.dyn False id p.1 ∧ p.2 <:+ s) (do
        let (xs, s) ← readList G (readText utf8 G f.ty) 0x5b 0x5d s
        match f.dyn.elements m with
        | .strs old => .ok (f.dyn.store m (old.length + xs.length, .strs (old ++ xs)), s)
        | _ => .ub) := by
      refine hl.bind fun p hp => ?_
      simp only [ev]
      refine ⟨h.storeRep (wf_dyn hT) hmem rep _ _ ?_ (fun _ _ _ e => by cases e), hp.2⟩
      unfold DynField.fits
      rw [if_pos rep]
      exact ⟨hk, by simp⟩
    rcases ht with ht | ht <;> (rw [ht] at hgoal ⊢; exact hgoal)
  · obtain ⟨vs, ev, hnone⟩ := e1 hk
    have hl := fine_readList L (P := fun _ => True) (one := readNum G false f.ty) (opening := 0x5b)
      (fun u => (fine_readNum L false f.ty u).mono fun _ h => ⟨trivial, h⟩) (by decide) 0x5d s
    have hgoal : Fine (fun p => DynWF T.dyn False id p.1 ∧ p.2 <:+ s) (do
        let (xs, s) ← readList G (readNum G false f.ty) 0x5b 0x5d s
        match f.dyn.elements m with
        | .nums old => .ok (f.dyn.store m (old.length + xs.length, .nums (old ++ xs.map some)), s)
        | _ => .ub) := by
      refine hl.bind fun p hp => ?_
      simp only [ev]
      refine ⟨h.storeRep (wf_dyn hT) hmem rep _ _ ?_ (fun _ _ _ e => by cases e), hp.2⟩
      unfold DynField.fits
      rw [if_pos rep]
      refine ⟨hk, by simp, .inr ?_⟩
      simp [hnone]
    split
    · exact absurd (by assumption) (ht1 _)
    · exact absurd (by assumption) ht2
    · exact absurd (by assumption) ht3
    · exact hgoal

theorem fine_readSingular {id : Nat} {f : JField} (hf : f ∈ (T id).fields) (single : f.dyn.repeated = false) {m : DynMsg}
    (h : DynWF T.dyn False id m) (s : List Byte) (hn : look (skipWs s) ≠ 0x6e) :
    Fine (fun p => DynWF T.dyn False id p.1 ∧ p.2 <:+ s) (readSingular T utf8 G r f m s) := by
  have hmem : f.dyn ∈ (T.dyn id).fields := dyn_mem (hT id) hf
  unfold readSingular
  rcases tied_cases hT hf with ⟨t, ht, hk⟩ | ⟨ht, hk⟩ | ⟨ht1, ht2, ht3, hk⟩
  · rw [ht]
    simp only
    have htar : Fine (DynWF T.dyn False t) (f.dyn.target T.dyn t m) := by
      unfold DynField.target
      split
      · rename_i hv
        have hfit := h.fits _ hmem (.inr hv)
        have hsub := h.sub _ hmem (.inr hv) t hk
        have hord := (hasValue_singular single m).1 hv
        unfold DynField.fits at hfit
        rw [if_neg (by simp [single])] at hfit
        generalize f.dyn.storage m = st at hfit hsub hord ⊢
        obtain ⟨w, c⟩ := st
        cases c with
        | msg v => exact hsub v rfl
        | zero =>
          rcases hfit with hfit | hfit
          · rw [hk] at hfit; cases hfit
          · exact absurd hord hfit
        | _ => first
          | exact hfit.elim
          | (rcases kind_cases f.dyn.kind with ⟨h1, h2, h3⟩ | ⟨h1, h2, h3⟩ | ⟨h1, h2, h3⟩ <;> simp_all)
      · exact wf_empty hT t
    refine htar.bind fun old hold => (hr t old s hold (fun hl => hn hl.2.2)).bind fun p hp => ?_
    refine ⟨h.store (wf_dyn hT) hmem _ _ (fun _ => .inr rfl) (fun _ => ?_) (fun _ sid hsid v e => ?_)
      (fun _ _ _ _ e => by cases e), hp.2⟩
    · unfold DynField.fits
      rw [if_neg (by simp [single])]
      show f.dyn.kind.msgType ≠ none
      rw [hk]; simp
    · cases e
      rw [hk] at hsid
      cases hsid
      exact hp.1
  · have hgoal : Fine (fun p => DynWF T.dyn False id p.1 ∧ p.2 <:+ s) (do
        let (t, s) ← readText utf8 G f.ty s
        .ok (f.dyn.setStr t m, s)) :=
      (fine_readText L f.ty s).bind fun p hp => ⟨h.step (wf_dyn hT) (.setStr hmem single hk p.1), hp⟩
    rcases ht with ht | ht <;> (rw [ht] at hgoal ⊢; exact hgoal)
  · have hgoal : Fine (fun p => DynWF T.dyn False id p.1 ∧ p.2 <:+ s) (do
        let (v, s) ← readNum G false f.ty s
        .ok (f.dyn.setNum v m, s)) :=
      (fine_readNum L false f.ty s).bind fun p hp => ⟨h.step (wf_dyn hT) (.setNum hmem single hk p.1), hp⟩
    split
    · exact absurd (by assumption) (ht1 _)
    · exact absurd (by assumption) ht2
    · exact absurd (by assumption) ht3
    · exact hgoal

omit L hr in
theorem fine_setNull {id : Nat} {f : JField} (hf : f ∈ (T id).fields) {m : DynMsg} (h : DynWF T.dyn False id m)
    (hrep : f.dyn.repeated = true → ∀ t, f.ty = .msg t → (T t).wk ≠ .value) :
    Fine (DynWF T.dyn False id) (setNull T f m) := by
  have hmem : f.dyn ∈ (T.dyn id).fields := dyn_mem (hT id) hf
  have hclear : DynWF T.dyn False id (f.dyn.clear m) := h.step (wf_dyn hT) (.clear hmem)
  unfold setNull
  split
  · rename_i t ht
    split
    · rename_i hwk
      cases hr : f.dyn.repeated with
      | true => exact absurd hwk (hrep hr t ht)
      | false =>
        rw [if_neg (by simp)]
        obtain ⟨nul, num, str, bool, struct, list, E, sid, lid, hfs, t1, _, _, _, _, _, _, _, _, _, _, ho⟩ :=
          (hT t).values hwk
        have hnul : nul ∈ (T t).fields := by rw [hfs]; simp
        have htied := (hT id).tied f hf
        unfold JField.tied at htied
        rw [ht] at htied
        simp only at htied
        have htn := (hT t).tied nul hnul
        unfold JField.tied at htn
        rw [t1] at htn
        have hsingle := ((wf_dyn hT t).member_explicit (dyn_mem (hT t) hnul) (ho nul hnul)).1
        have hsub : DynWF T.dyn False t (nul.dyn.setNum 0 (T t).dyn.empty) :=
          (wf_empty hT t).step (wf_dyn hT) (.setNum (dyn_mem (hT t) hnul) hsingle htn 0)
        rw [hfs]
        refine h.store (wf_dyn hT) hmem _ _ (fun _ => .inr rfl) (fun _ => ?_) (fun _ sid hsid v e => ?_)
          (fun _ _ _ _ e => by cases e)
        · unfold DynField.fits
          rw [if_neg (by simp [hr])]
          show f.dyn.kind.msgType ≠ none
          rw [htied]; simp
        · cases e
          rw [htied] at hsid
          cases hsid
          exact hsub
    · exact hclear
  · exact hclear

theorem fine_readField {id : Nat} {f : JField} (hf : f ∈ (T id).fields) {m : DynMsg}
    (h : DynWF T.dyn False id m) (s : List Byte)
    (hrep : f.dyn.repeated = true → ∀ t, f.ty = .msg t → (T t).wk ≠ .listValue ∧
      ((T t).wk = .value → look (skipWs s) ≠ 0x6e)) :
    Fine (fun p => DynWF T.dyn False id p.1 ∧ p.2 <:+ s) (readField T utf8 G r f m s) := by
  unfold readField
  refine (fine_readNull s).bind fun o ho => ?_
  cases o with
  | some u =>
    refine (fine_setNull hT hf h fun rep t ht hwk => ?_).bind fun m' hm' => ⟨hm', ho.1⟩
    exact (hrep rep t ht).2 hwk ho.2
  | none =>
    simp only
    split
    · rename_i rep
      exact fine_readRepeated L hT hr hf rep h (fun t ht => (hrep rep t ht).1) s
    · rename_i single
      exact fine_readSingular L hT hr hf (by simpa using single) h s ho

variable (hN : T.NoTrap)
include hN

theorem fine_readMembers {id : Nat} (hid : (T id).entry = true ∨ (T id).wk ≠ .listValue) (fuel : Nat) :
    ∀ (first : Bool) (m : DynMsg) (s : List Byte), DynWF T.dyn False id m → s.length < fuel →
      Fine (fun p => DynWF T.dyn False id p.1 ∧ p.2 <:+ s) (readMembers T utf8 G r (T id) fuel first m s) := by
  induction fuel with
  | zero => intro _ _ s _ h; omega
  | succ fuel ih =>
    intro first m s h hs
    rw [readMembers]
    split
    · exact ⟨h, tail_suffix s⟩
    · have next : ∀ u, u <:+ s → Fine (fun p => DynWF T.dyn False id p.1 ∧ p.2 <:+ s) (do
          let (key, s) ← G.readView u
          let s ← readColon s
          match (T id).fieldOf key with
          | none => .err .badMessage
          | some f => do
            let (m, s) ← readField T utf8 G r f m s
            readMembers T utf8 G r (T id) fuel false m (skipWs s)) := fun u hu => ?_
      · dsimp only
        split
        · exact next s (List.suffix_refl s)
        · exact (fine_expect (by decide) s).bind fun u hu => next _ ((skipWs_suffix u).trans hu.1)
      refine (fine_shortens (L.safeView u)).bind fun p hp => ?_
      have hcol : Fine (fun v => v <:+ p.2) (readColon p.2) := by
        unfold readColon
        exact (fine_expect (by decide) _).bind fun v hv => (skipWs_suffix v).trans (hv.1.trans (skipWs_suffix _))
      refine hcol.bind fun v hv => ?_
      split
      · trivial
      · rename_i f hf
        have hfm : f ∈ (T id).fields := by
          unfold JDesc.fieldOf at hf
          split at hf
          · cases hf
            exact List.mem_of_find?_eq_some (by assumption)
          · exact List.mem_of_find?_eq_some hf
        refine (fine_readField L hT hr hfm h v fun rep t ht => ?_).bind fun q hq => ?_
        · have := hN.lists id hid f hfm rep t ht
          exact ⟨this.2, fun e => absurd e this.1⟩
        · have hsuf : skipWs q.2 <:+ p.2 := (skipWs_suffix _).trans (hq.2.trans hv)
          have hlt := Shorter.after hu (hp.trans hsuf)
          refine (ih false q.1 _ hq.1 (by have := hlt.2; omega)).mono fun w hw => ⟨hw.1, hw.2.trans hlt.1⟩

theorem fine_readBody : FineReader T (readBody T utf8 G r) := by
  intro id m s h hnull
  have hsafe : ∀ (hid : (T id).entry = true ∨ (T id).wk ≠ .listValue) {f : JField}, f ∈ (T id).fields → ∀ {m : DynMsg},
      DynWF T.dyn False id m → ∀ u, Fine (fun p => DynWF T.dyn False id p.1 ∧ p.2 <:+ u) (readField T utf8 G r f m u) := by
    intro hid f hf m hm u
    refine fine_readField L hT hr hf hm u fun rep t ht => ?_
    have := hN.lists id hid f hf rep t ht
    exact ⟨this.2, fun e => absurd e this.1⟩
  unfold readBody
  simp only
  split
  · rename_i he
    obtain ⟨k, v, hfs, hkr, hvr, _, _, hkt⟩ := (hT id).entries he
    have hkm : k ∈ (T id).fields := by rw [hfs]; simp
    have hvm : v ∈ (T id).fields := by rw [hfs]; simp
    have hkd : k.dyn ∈ (T.dyn id).fields := dyn_mem (hT id) hkm
    have htied := (hT id).tied k hkm
    unfold JField.tied at htied
    have hrest : ∀ {m' : DynMsg} {u : List Byte}, DynWF T.dyn False id m' → u <:+ s →
        Fine (fun p => DynWF T.dyn False id p.1 ∧ p.2 <:+ s) (do
          let s ← readColon u
          match (← readNull s) with
          | some s => do
            let m ← setNull T v m'
            if v.isValue T then .ok (m, s) else .err .badMessage
          | none => readSingular T utf8 G r v m' s) := by
      intro m' u hm' hu
      have hcol : Fine (fun w => w <:+ u) (readColon u) := by
        unfold readColon
        exact (fine_expect (by decide) _).bind fun w hw => (skipWs_suffix w).trans (hw.1.trans (skipWs_suffix _))
      refine hcol.bind fun w hw => (fine_readNull w).bind fun o ho => ?_
      cases o with
      | some x =>
        refine (fine_setNull hT hvm hm' (by simp [hvr])).bind fun m2 hm2 => ?_
        split
        · exact ⟨hm2, ho.1.trans (hw.trans hu)⟩
        · trivial
      | none =>
        exact (fine_readSingular L hT hr hvm hvr hm' w ho).mono fun p hp => ⟨hp.1, hp.2.trans (hw.trans hu)⟩
    unfold readEntry
    rw [hfs]
    simp only
    have hstr : k.ty = .string → ∀ p : List Byte × List Byte, p.2 <:+ s → DynWF T.dyn False id (k.dyn.setStr p.1 m) :=
      fun e p _ => by
        rw [e] at htied
        exact h.step (wf_dyn hT) (.setStr hkd hkr htied p.1)
    have hnum : k.dyn.kind.isNum = true → ∀ v, DynWF T.dyn False id (k.dyn.setNum v m) :=
      fun e v => h.step (wf_dyn hT) (.setNum hkd hkr e v)
    cases e : k.ty with
    | string => exact (fine_readText L .string s).bind fun p hp => hrest (hstr e p hp) hp
    | int a b =>
      rw [e] at htied
      exact (fine_readNum L true _ s).bind fun p hp => hrest (hnum htied p.1) hp
    | bool =>
      rw [e] at htied
      exact (fine_readNum L true _ s).bind fun p hp => hrest (hnum htied p.1) hp
    | float _ => trivial
    | enum _ => trivial
    | bytes => trivial
    | msg _ => trivial
  · rename_i he
    replace he : (T id).entry = false := by simpa using he
    have hws := skipWs_suffix s
    have two : ∀ decode, ((T id).wk = .timestamp ∨ (T id).wk = .duration) →
        Fine (fun p => DynWF T.dyn False id p.1 ∧ p.2 <:+ s) (readTwo G decode (T id) m s) := by
      intro decode hwk
      obtain ⟨a, b, hfs, ta, tb, ra, rb, _, _⟩ := (hT id).timestamps hwk
      have ham : a ∈ (T id).fields := by rw [hfs]; simp
      have hbm : b ∈ (T id).fields := by rw [hfs]; simp
      have ka := (hT id).tied a ham
      have kb := (hT id).tied b hbm
      unfold JField.tied at ka kb
      rw [ta] at ka
      rw [tb] at kb
      unfold readTwo
      refine (fine_shortens (L.safeView _)).bind fun p hp => ?_
      rw [hfs]
      dsimp only
      split
      · rename_i x y c d e1 e2
        cases e2
        exact ⟨(h.step (wf_dyn hT) (.setNum (dyn_mem (hT id) ham) ra ka _)).step (wf_dyn hT)
          (.setNum (dyn_mem (hT id) hbm) rb kb _), hp.1.trans hws⟩
      · trivial
    cases hwk : (T id).wk with
    | none =>
      simp only
      unfold readObject
      refine (fine_expect (by decide) _).bind fun u hu => ?_
      exact (fine_readMembers L hT hr hN (.inr (by simp [hwk])) _ _ _ _ h (by omega)).mono fun p hp =>
        ⟨hp.1, hp.2.trans ((skipWs_suffix u).trans (hu.1.trans hws))⟩
    | any => exact absurd hwk (hN.any id)
    | timestamp => exact two _ (.inl hwk)
    | duration => exact two _ (.inr hwk)
    | fieldMask =>
      simp only
      obtain ⟨f, hfs, tf, rf⟩ := (hT id).masks hwk
      have hfm : f ∈ (T id).fields := by rw [hfs]; simp
      have kf := (hT id).tied f hfm
      unfold JField.tied at kf
      rw [tf] at kf
      unfold readMask
      refine (fine_shortens (L.safeStr _)).bind fun p hp => ?_
      rw [hfs]
      dsimp only
      split
      · exact ⟨h, hp.1.trans hws⟩
      · exact ⟨h.step (wf_dyn hT) (.setStrs (dyn_mem (hT id) hfm) rf kf _), hp.1.trans hws⟩
    | value =>
      simp only
      obtain ⟨nul, num, str, bool, struct, list, E, sid, lid, hfs, t1, _, _, _, _, _, _, _, _, _, _, ho⟩ :=
        (hT id).values hwk
      have hfield : ∀ i, i < 6 → Fine (fun p => DynWF T.dyn False id p.1 ∧ p.2 <:+ s)
          (match (T id).fields[i]? with
          | some f => readField T utf8 G r f m (skipWs s)
          | none => .ub) := by
        intro i hi
        cases e : (T id).fields[i]? with
        | none => rw [hfs] at e; simp at e; omega
        | some f => exact (hsafe (.inr (by simp [hwk])) (List.mem_of_getElem? e) h _).mono fun p hp => ⟨hp.1, hp.2.trans hws⟩
      unfold readAlternative
      simp only
      split
      · rename_i hc
        refine (fine_step (by rw [hc]; decide)).bind fun u hu => (fine_expectText _ u).bind fun v hv => ?_
        have hnul : nul ∈ (T id).fields := by rw [hfs]; simp
        have htn := (hT id).tied nul hnul
        unfold JField.tied at htn
        rw [t1] at htn
        have hsingle := ((wf_dyn hT id).member_explicit (dyn_mem (hT id) hnul) (ho nul hnul)).1
        rw [hfs]
        exact ⟨h.step (wf_dyn hT) (.setNum (dyn_mem (hT id) hnul) hsingle htn 0), hv.trans (hu.1.trans hws)⟩
      · split
        · exact hfield 3 (by omega)
        split
        · exact hfield 2 (by omega)
        split
        · exact hfield 5 (by omega)
        split
        · exact hfield 4 (by omega)
        · exact hfield 1 (by omega)
    | struct =>
      simp only
      obtain ⟨f, _, hfs, _⟩ := (hT id).structs hwk
      have := hsafe (.inr (by simp [hwk])) (f := f) (by rw [hfs]; simp) h s
      rw [hfs]
      exact this
    | listValue =>
      simp only
      obtain ⟨f, t, hfs, _, ht, hte, htw⟩ := (hT id).lists hwk
      have hfm : f ∈ (T id).fields := by rw [hfs]; simp
      have := fine_readField (utf8 := utf8) L hT hr hfm h s fun _ t' ht' => by
        rw [ht] at ht'
        cases ht'
        exact ⟨by simp [htw], fun _ hn => hnull ⟨he, hwk, hn⟩⟩
      rw [hfs]
      exact this
    | wrapper =>
      simp only
      obtain ⟨f, hfs, _⟩ := (hT id).wrappers hwk
      have := hsafe (.inr (by simp [hwk])) (f := f) (by rw [hfs]; simp) h s
      rw [hfs]
      exact this

omit hr in
theorem fine_readLevel (d : Nat) : FineReader T (readLevel T utf8 G d) := by
  induction d with
  | zero => intro id m s _ _; trivial
  | succ d ih => exact fine_readBody L hT ih hN

end

end HppProto.Json
