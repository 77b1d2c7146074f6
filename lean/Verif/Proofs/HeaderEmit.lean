import Verif.Proofs.HeaderOrder

/-! # What is written for the messages of a scope -/

namespace HppProto.Gen
open HppProto Schema

namespace Schema
variable {P : Schema}

/-! ## Nesting -/

theorem within_refl (m : Nat) : P.Within m m := List.prefix_refl _

theorem Within.trans {a b c : Nat} (h : P.Within a b) (g : P.Within b c) : P.Within a c := List.IsPrefix.trans h g

theorem nested_mem {file : Nat} {p : Option Nat} {c : Nat} : c ∈ P.nested file p ↔
    c < P.messages.length ∧ (P.msg c).parent = p ∧ (P.msg c).file = file := by
  simp [nested]

theorem nested_nodup (file : Nat) (p : Option Nat) : (P.nested file p).Nodup :=
  List.Nodup.sublist List.filter_sublist List.nodup_range

theorem nested_scope (file : Nat) (p : Option Nat) : Scope P (P.nested file p) := by
  refine ⟨nested_nodup _ _, fun m hm => (nested_mem.mp hm).1, ?_, ?_⟩
  · intro m hm k hk
    rw [(nested_mem.mp hm).2.2, (nested_mem.mp hk).2.2]
  · intro m hm k hk
    obtain ⟨_, h2, h3⟩ := nested_mem.mp hm
    exact nested_mem.mpr ⟨hk.2.1, by rw [← hk.2.2.2.1, h2], by rw [← hk.2.2.2.2, h3]⟩

theorem nested_sib {file : Nat} {p : Option Nat} {c d : Nat} (hc : c ∈ P.nested file p) (hd : d ∈ P.nested file p) (ne : c ≠ d) :
    P.Siblings c d := by
  obtain ⟨h1, h2, h3⟩ := nested_mem.mp hc
  obtain ⟨g1, g2, g3⟩ := nested_mem.mp hd
  exact ⟨h1, g1, ne, by rw [h2, g2], by rw [h3, g3]⟩

/-- What is inside a message is inside one nested in it. -/
theorem child_of (hP : P.Ok) {m : Nat} (hm : m < P.messages.length) : ∀ k, k < P.messages.length → P.Within m k → k ≠ m →
    ∃ c ∈ P.nested (P.msg m).file (some m), P.Within c k := by
  intro k
  induction k using Nat.strongRecOn with
  | ind k ih =>
    intro hk hw hne
    rcases hP.enclosed k hk m hm hw with h | ⟨p, hp, hw'⟩
    · exact absurd h.symm hne
    · obtain ⟨h1, h2, h3, n, hn⟩ := hP.inner k hk p hp
      by_cases e : p = m
      · subst e
        exact ⟨k, nested_mem.mpr ⟨hk, hp, h2.symm⟩, within_refl k⟩
      · obtain ⟨c, hc, hw2⟩ := ih p h1 (by omega) hw' e
        exact ⟨c, hc, hw2.trans (show P.Within p k from ⟨[n], hn.symm⟩)⟩

theorem top_of (hP : P.Ok) : ∀ k, k < P.messages.length → ∃ c ∈ P.nested (P.msg k).file none, P.Within c k := by
  intro k
  induction k using Nat.strongRecOn with
  | ind k ih =>
    intro hk
    cases hp : (P.msg k).parent with
    | none => exact ⟨k, nested_mem.mpr ⟨hk, hp, rfl⟩, within_refl k⟩
    | some p =>
      obtain ⟨h1, h2, h3, n, hn⟩ := hP.inner k hk p hp
      obtain ⟨c, hc, hw⟩ := ih p h1 (by omega)
      exact ⟨c, by rw [← h2]; exact hc, hw.trans (show P.Within p k from ⟨[n], hn.symm⟩)⟩

theorem child_within (hP : P.Ok) {m c : Nat} (hc : c ∈ P.nested (P.msg m).file (some m)) : m < c ∧ P.Within m c ∧ ¬ P.Within c m := by
  obtain ⟨h1, h2, h3⟩ := nested_mem.mp hc
  obtain ⟨g1, g2, g3, n, hn⟩ := hP.inner c h1 m h2
  refine ⟨g1, ⟨[n], hn.symm⟩, ?_⟩
  intro h
  have := List.IsPrefix.length_le h
  rw [hn] at this
  simp at this
  omega

theorem not_entry (hP : P.Ok) {c k : Nat} (hc : c < P.messages.length) (hk : k < P.messages.length) (hw : P.Within c k)
    (ne : k ≠ c) : (P.msg c).entry = false := by
  obtain ⟨d, hd, _⟩ := child_of hP hc k hk hw ne
  obtain ⟨h1, h2, h3⟩ := nested_mem.mp hd
  exact (hP.inner d h1 c h2).2.2.1

theorem within_antisymm (hP : P.Ok) {a b : Nat} (ha : a < P.messages.length) (hb : b < P.messages.length) (h : P.Within a b)
    (g : P.Within b a) : a = b :=
  hP.distinct a ha b hb (List.IsPrefix.eq_of_length h (Nat.le_antisymm h.length_le g.length_le))

theorem within_file (hP : P.Ok) : ∀ k, k < P.messages.length → ∀ m, m < P.messages.length → P.Within m k →
    (P.msg m).file = (P.msg k).file := by
  intro k
  induction k using Nat.strongRecOn with
  | ind k ih =>
    intro hk m hm hw
    rcases hP.enclosed k hk m hm hw with h | ⟨p, hp, hw'⟩
    · rw [h]
    · obtain ⟨h1, h2, _⟩ := hP.inner k hk p hp
      rw [ih p h1 (by omega) m hm hw', h2]

/-! ## What is known when a struct is written -/

/-- All of `y` is written. -/
def Complete (P : Schema) (ctx : List Event) (y : Nat) : Prop :=
  ∀ k < P.messages.length, P.Within y k → (P.msg k).entry = false →
    (∃ us, .define k us ∈ ctx) ∧ ((P.msg k).hasEnums = true → .enums k ∈ ctx)

/-- What message `x` needs is written, or declared ahead. -/
def Met (P : Schema) (ctx : List Event) (st : State) (x : Nat) : Prop :=
  ∀ y, P.Needs x y → P.Complete ctx y ∨ (¬ P.Settled y ∧ .fwd y ∈ ctx ∧ P.Marked st x y)

/-- What precedes `m` for the messages enclosing it. -/
def Outer (P : Schema) (ctx : List Event) (st : State) (m : Nat) : Prop :=
  ∀ x, P.Within x m → x ≠ m → ((P.msg x).hasEnums = true → .enums x ∈ ctx) ∧ P.Met ctx st x

/-- The fields whose type encloses them are taken for recursive. -/
def SelfMarked (P : Schema) (st : State) : Prop :=
  ∀ i < P.fields.length, ∀ m t, (P.field i).parent = some m → (P.field i).kind = .message t →
    (P.msg m).entry = false → (P.msg t).entry = false → P.Within t m → st.recursive i = true

/-- What precedes the struct of `m`. -/
structure Seen (P : Schema) (ctx : List Event) (st : State) (m : Nat) : Prop where
  lt : m < P.messages.length
  entry : (P.msg m).entry = false
  self : P.SelfMarked st
  inner : ∀ k < P.messages.length, P.Within m k → k ≠ m → (P.msg k).entry = false →
    (∃ us, .define k us ∈ ctx) ∧ ((P.msg k).hasEnums = true → .enums k ∈ ctx)
  enums : ∀ x, P.Within x m → (P.msg x).hasEnums = true → .enums x ∈ ctx
  met : ∀ x, P.Within x m → P.Met ctx st x

/-- Every struct is preceded by what it needs. -/
def Good (P : Schema) (ctx es : List Event) : Prop :=
  ∀ a m us b, es = a ++ .define m us :: b → ∃ st, us = (P.fieldsOf m).flatMap (P.usesOf st) ∧ Seen P (ctx ++ a) st m

theorem Good.append {ctx e1 e2 : List Event} (h1 : P.Good ctx e1) (h2 : P.Good (ctx ++ e1) e2) : P.Good ctx (e1 ++ e2) := by
  intro a m us b e
  rcases List.append_eq_append_iff.mp e with ⟨c, h3, h4⟩ | ⟨c, h3, h4⟩
  · subst h3
    obtain ⟨st, h5, h6⟩ := h2 c m us b h4
    exact ⟨st, h5, by rw [← List.append_assoc]; exact h6⟩
  · cases c with
    | nil =>
      simp only [List.append_nil] at h3
      subst h3
      obtain ⟨st, h5, h6⟩ := h2 [] m us b (by simpa using h4.symm)
      exact ⟨st, h5, by simpa using h6⟩
    | cons d c =>
      simp only [List.cons_append, List.cons.injEq] at h4
      obtain ⟨rfl, h4⟩ := h4
      exact h1 a m us c h3

theorem Good.of_none {ctx es : List Event} (h : ∀ m us, .define m us ∉ es) : P.Good ctx es := by
  intro a m us b e
  exact absurd (by rw [e]; simp) (h m us)

theorem Complete.mono {ctx ctx' : List Event} (h : ∀ e ∈ ctx, e ∈ ctx') {y : Nat} (c : P.Complete ctx y) : P.Complete ctx' y := by
  intro k hk hw he
  obtain ⟨⟨us, a⟩, b⟩ := c k hk hw he
  exact ⟨⟨us, h _ a⟩, fun x => h _ (b x)⟩

theorem Met.mono {ctx ctx' : List Event} {st st' : State} (h : ∀ e ∈ ctx, e ∈ ctx')
    (g : ∀ i, st.recursive i = true → st'.recursive i = true) {x : Nat} (c : P.Met ctx st x) : P.Met ctx' st' x := by
  intro y hy
  rcases c y hy with r | ⟨a, b, r⟩
  · exact .inl (r.mono h)
  · exact .inr ⟨a, h _ b, fun i hi h1 h2 => g i (r i hi h1 h2)⟩

/-- What writing part of a schema (the messages in `R`, of which those in `B` change in the state) does. -/
structure Emitted (P : Schema) (st st' : State) (es : List Event) (R B : Nat → Prop) : Prop where
  used : P.Used st'
  grow : ∀ i, st.recursive i = true → st'.recursive i = true
  off : ∀ k, ¬ B k → st'.deps k = st.deps k ∧ st'.fwd k = st.fwd k
  full : ∀ k < P.messages.length, R k → (P.msg k).entry = false →
    (∃ us, .define k us ∈ es) ∧ ((P.msg k).hasEnums = true → .enums k ∈ es)
  once : ∀ k < P.messages.length, R k → (P.msg k).entry = false → defined es k = 1
  none : ∀ k, ¬ (k < P.messages.length ∧ R k ∧ (P.msg k).entry = false) → defined es k = 0

/-- Nothing below a message has changed. -/
def Below (P : Schema) (st : State) (m : Nat) : Prop :=
  ∀ k < P.messages.length, P.Within m k → k ≠ m → (∀ y, y ∈ st.deps k ↔ P.Needs k y) ∧ st.fwd k = []

theorem defined_append (a b : List Event) (k : Nat) : defined (a ++ b) k = defined a k + defined b k := List.countP_append

/-- Writing a message. -/
def EmitOk (P : Schema) (one : State → Nat → Res (List Event × State)) (m : Nat) : Prop :=
  ∀ st, P.Used st → P.SelfMarked st → P.Below st m →
    (one st m = .ub ∧ ¬ P.ExtensionsSettled) ∨ ∃ es st', one st m = .ok (es, st') ∧
      Emitted P st st' es (fun k => P.Within m k) (fun k => P.Within m k ∧ k ≠ m) ∧
      (P.Lone → ∀ ctx, P.Outer ctx st m → (∀ y, P.Needs m y → P.Complete ctx y ∨ P.Ahead st m y) → P.Good ctx es)

theorem emitList_spec (hP : P.Ok) {one : State → Nat → Res (List Event × State)} : ∀ (l : List Nat), l.Nodup →
    (∀ c ∈ l, c < P.messages.length) → (∀ c ∈ l, ∀ d ∈ l, c ≠ d → P.Siblings c d) → (∀ c ∈ l, P.EmitOk one c) →
    ∀ st, P.Used st → P.SelfMarked st → (∀ c ∈ l, P.Below st c) →
    (emitList one st l = .ub ∧ ¬ P.ExtensionsSettled) ∨ ∃ es st', emitList one st l = .ok (es, st') ∧
      Emitted P st st' es (fun k => ∃ c ∈ l, P.Within c k) (fun k => ∃ c ∈ l, P.Within c k ∧ k ≠ c) ∧
      (P.Lone → ∀ ctx, (∀ c ∈ l, P.Outer ctx st c) →
        (∀ a c b, l = a ++ c :: b → ∀ y, P.Needs c y → P.Complete ctx y ∨ y ∈ a ∨ P.Ahead st c y) → P.Good ctx es)
  | [], _, _, _, _, st, hu, _, _ => by
    refine .inr ⟨[], st, rfl, ⟨hu, fun _ h => h, fun _ _ => ⟨rfl, rfl⟩, ?_, ?_, fun _ _ => rfl⟩, ?_⟩
    · rintro k _ ⟨c, hc, _⟩; cases hc
    · rintro k _ ⟨c, hc, _⟩; cases hc
    · intro _ ctx _ _
      exact .of_none (by simp)
  | c :: l, hn, hlt, hsib, hone, st, hu, hs, hb => by
    rw [emitList]
    rcases hone c (by simp) st hu hs (hb c (by simp)) with ⟨h1, h2⟩ | ⟨e1, st1, h1, em1, g1⟩
    · rw [h1]; exact .inl ⟨rfl, h2⟩
    · rw [h1]
      have hcl : c ∉ l := (List.nodup_cons.mp hn).1
      have apart : ∀ d ∈ l, ∀ k, P.Within d k → ¬ P.Within c k := by
        intro d hd k h1 h2
        have ne : c ≠ d := fun e => hcl (e ▸ hd)
        exact sib_apart hP (hsib c (by simp) d (by simp [hd]) ne) h2 h1
      have hs1 : P.SelfMarked st1 := fun i hi m t a b c d e => em1.grow i (hs i hi m t a b c d e)
      have hb1 : ∀ d ∈ l, P.Below st1 d := by
        intro d hd k hk hw hne
        obtain ⟨a, b⟩ := em1.off k (fun h => apart d hd k hw h.1)
        rw [a, b]
        exact hb d (by simp [hd]) k hk hw hne
      rcases emitList_spec hP l (List.nodup_cons.mp hn).2 (fun d hd => hlt d (by simp [hd]))
        (fun a ha b hb => hsib a (by simp [ha]) b (by simp [hb])) (fun d hd => hone d (by simp [hd])) st1 em1.used hs1 hb1 with
        ⟨h3, h4⟩ | ⟨e2, st2, h3, em2, g2⟩
      · simp only [okBind, h3]
        exact .inl ⟨rfl, h4⟩
      · simp only [okBind, h3]
        refine .inr ⟨e1 ++ e2, st2, rfl, ⟨em2.used, fun i hi => em2.grow i (em1.grow i hi), ?_, ?_, ?_, ?_⟩, ?_⟩
        · intro k hk
          obtain ⟨a, b⟩ := em1.off k (fun h => hk ⟨c, by simp, h⟩)
          obtain ⟨a', b'⟩ := em2.off k (fun ⟨d, hd, h⟩ => hk ⟨d, by simp [hd], h⟩)
          exact ⟨a'.trans a, b'.trans b⟩
        · rintro k hk ⟨d, hd, hw⟩ he
          rcases List.mem_cons.mp hd with rfl | hd
          · obtain ⟨⟨us, a⟩, b⟩ := em1.full k hk hw he
            exact ⟨⟨us, by simp [a]⟩, fun h => by simp [b h]⟩
          · obtain ⟨⟨us, a⟩, b⟩ := em2.full k hk ⟨d, hd, hw⟩ he
            exact ⟨⟨us, by simp [a]⟩, fun h => by simp [b h]⟩
        · rintro k hk ⟨d, hd, hw⟩ he
          rw [defined_append]
          rcases List.mem_cons.mp hd with rfl | hd
          · rw [em1.once k hk hw he, em2.none k]
            rintro ⟨_, ⟨d', hd', hw'⟩, _⟩
            exact apart d' hd' k hw' hw
          · rw [em2.once k hk ⟨d, hd, hw⟩ he, em1.none k]
            rintro ⟨_, hw', _⟩
            exact apart d hd k hw hw'
        · intro k hk
          rw [defined_append, em1.none k, em2.none k]
          · rintro ⟨a, ⟨d, hd, hw⟩, b⟩
            exact hk ⟨a, ⟨d, by simp [hd], hw⟩, b⟩
          · rintro ⟨a, hw, b⟩
            exact hk ⟨a, ⟨c, by simp, hw⟩, b⟩
        · intro hl ctx ho hord
          refine Good.append (g1 hl ctx (ho c (by simp)) ?_) (g2 hl (ctx ++ e1) ?_ ?_)
          · intro y hy
            rcases hord [] c l rfl y hy with r | r | r
            · exact .inl r
            · cases r
            · exact .inr r
          · intro d hd x hw hne
            obtain ⟨a, b⟩ := ho d (by simp [hd]) x hw hne
            exact ⟨fun h => by simp [a h], b.mono (by simp +contextual) em1.grow⟩
          · intro a d b e y hy
            have hd : d ∈ l := by rw [e]; simp
            rcases hord (c :: a) d b (by rw [e]; rfl) y hy with r | r | ⟨r1, r2, r3⟩
            · exact .inl (r.mono (by simp +contextual))
            · rcases List.mem_cons.mp r with rfl | r
              · left
                intro k hk hw he
                obtain ⟨⟨us, p⟩, q⟩ := em1.full k hk hw he
                exact ⟨⟨us, by simp [p]⟩, fun h => by simp [q h]⟩
              · exact .inr (.inl r)
            · refine .inr (.inr ⟨r1, ?_, fun i hi h1 h2 => em1.grow i (r3 i hi h1 h2)⟩)
              rw [(em1.off d (fun h => apart d hd d (within_refl d) h.1)).2]
              exact r2

/-- The events around the body of a message. -/
theorem emit_spec (hP : P.Ok) : ∀ (fuel m : Nat), m < P.messages.length → P.messages.length ≤ fuel + m →
    P.EmitOk (P.emit fuel) m
  | 0, m, hm, hf => absurd hf (by omega)
  | fuel + 1, m, hm, hf => by
    intro st hu hs hb
    rw [emit]
    by_cases he : (P.msg m).entry = true
    · rw [if_pos he]
      have no : ∀ k < P.messages.length, P.Within m k → (P.msg k).entry = false → False := by
        intro k hk hw hke
        by_cases e : k = m
        · subst e; rw [he] at hke; cases hke
        · have := not_entry hP hm hk hw e
          rw [he] at this; cases this
      refine .inr ⟨[], st, rfl, ⟨hu, fun _ h => h, fun _ _ => ⟨rfl, rfl⟩, ?_, ?_, fun _ _ => rfl⟩, ?_⟩
      · intro k hk hw hke; exact (no k hk hw hke).elim
      · intro k hk hw hke; exact (no k hk hw hke).elim
      · intro _ ctx _ _; exact .of_none (by simp)
    · rw [if_neg he]
      have he' : (P.msg m).entry = false := by simpa using he
      -- the body
      have body : ∃ r : Res (List Event × State),
          (if (P.msg m).hasEnums || (P.nested (P.msg m).file (some m)).any (fun n => !(P.msg n).entry) then do
              let (o, st) ← P.order st (P.nested (P.msg m).file (some m))
              emitList (P.emit fuel) st o
            else .ok ([], st)) = r ∧
          ((r = .ub ∧ ¬ P.ExtensionsSettled) ∨ ∃ es st', r = .ok (es, st') ∧
            Emitted P st st' es (fun k => P.Within m k ∧ k ≠ m) (fun k => P.Within m k ∧ k ≠ m) ∧
            (P.Lone → ∀ ctx, (∀ x, P.Within x m → ((P.msg x).hasEnums = true → .enums x ∈ ctx) ∧ P.Met ctx st x) →
              P.Good ctx es)) := by
        refine ⟨_, rfl, ?_⟩
        split
        · rcases order_spec hP (nested_scope (P.msg m).file (some m)) st hu (by
            intro x hx
            have hw := child_within hP hx
            exact (hb x (nested_mem.mp hx).1 hw.2.1 (by omega)).1) with ⟨h1, h2⟩ | ⟨o, st1, h1, inv⟩
          · rw [h1]; exact .inl ⟨rfl, h2⟩
          · rw [h1]
            simp only [okBind]
            have perm : o.Perm (P.nested (P.msg m).file (some m)) := by simpa using inv.perm
            have omem : ∀ c, c ∈ o ↔ c ∈ P.nested (P.msg m).file (some m) := fun c => perm.mem_iff
            have hs1 : P.SelfMarked st1 := fun i hi m t a b c d e => inv.grow i (hs i hi m t a b c d e)
            rcases emitList_spec hP (one := P.emit fuel) o (perm.nodup_iff.mpr (nested_nodup _ _))
              (fun c hc => (nested_mem.mp ((omem c).mp hc)).1)
              (fun c hc d hd ne => nested_sib ((omem c).mp hc) ((omem d).mp hd) ne)
              (fun c hc => emit_spec hP fuel c (nested_mem.mp ((omem c).mp hc)).1 (by
                have := (child_within hP ((omem c).mp hc)).1
                omega)) st1 inv.used hs1 (by
                intro c hc k hk hw hne
                have hcc := (omem c).mp hc
                have : k ∉ P.nested (P.msg m).file (some m) := by
                  intro hk'
                  exact sib_apart hP (nested_sib hcc hk' (fun e => hne e.symm)) hw (List.prefix_refl _)
                obtain ⟨a, b⟩ := inv.off k this
                rw [a, b]
                have hmc := child_within hP hcc
                refine hb k hk (hmc.2.1.trans hw) ?_
                rintro rfl
                exact hmc.2.2 hw) with ⟨h2, h3⟩ | ⟨es, st2, h2, em, g⟩
            · exact .inl ⟨h2, h3⟩
            · have region : ∀ k, k < P.messages.length → ((∃ c ∈ o, P.Within c k) ↔ P.Within m k ∧ k ≠ m) := by
                intro k hk
                constructor
                · rintro ⟨c, hc, hw⟩
                  have hmc := child_within hP ((omem c).mp hc)
                  refine ⟨hmc.2.1.trans hw, ?_⟩
                  rintro rfl
                  exact hmc.2.2 hw
                · rintro ⟨hw, hne⟩
                  obtain ⟨c, hc, hw'⟩ := child_of hP hm k hk hw hne
                  exact ⟨c, (omem c).mpr hc, hw'⟩
              refine .inr ⟨es, st2, h2, ⟨em.used, fun i hi => em.grow i (inv.grow i hi), ?_, ?_, ?_, ?_⟩, ?_⟩
              · intro k hk
                have h3 : k ∉ P.nested (P.msg m).file (some m) := by
                  intro h
                  have hmc := child_within hP h
                  exact hk ⟨hmc.2.1, by omega⟩
                obtain ⟨a, b⟩ := inv.off k h3
                obtain ⟨a', b'⟩ := em.off k (by
                  rintro ⟨c, hc, hw, hne⟩
                  have hmc := child_within hP ((omem c).mp hc)
                  refine hk ⟨hmc.2.1.trans hw, ?_⟩
                  rintro rfl
                  exact hmc.2.2 hw)
                exact ⟨a'.trans a, b'.trans b⟩
              · intro k hk hw hke
                exact em.full k hk ((region k hk).mpr hw) hke
              · intro k hk hw hke
                exact em.once k hk ((region k hk).mpr hw) hke
              · intro k hk
                apply em.none
                rintro ⟨a, b, c⟩
                exact hk ⟨a, (region k a).mp b, c⟩
              · intro hl ctx hctx
                apply g hl ctx
                · intro c hc x hw hne
                  have hcc := (omem c).mp hc
                  -- what encloses a nested message encloses `m`
                  have hxm : P.Within x m := by
                    obtain ⟨h1, h2, h3⟩ := nested_mem.mp hcc
                    obtain ⟨_, _, _, n, hn⟩ := hP.inner c h1 m h2
                    have hw' := hw
                    unfold Within at hw' ⊢
                    rw [hn] at hw'
                    rcases List.prefix_concat_iff.mp (by simpa using hw') with h | h
                    · exfalso
                      apply hne
                      by_cases hx : x < P.messages.length
                      · exact hP.distinct x hx c h1 (by rw [hn, h])
                      · exfalso
                        have : (P.msg x).path = [] := by simp [msg, List.getD, hx]
                        rw [this] at h
                        simp at h
                    · exact h
                  obtain ⟨a, b⟩ := hctx x hxm
                  exact ⟨a, b.mono (fun _ h => h) inv.grow⟩
                · intro a c b e y hy
                  rcases inv.past hl a c b e y hy with r | r
                  · exact .inr (.inl r)
                  · exact .inr (.inr r)
        · rename_i hcond
          have no : ∀ k < P.messages.length, (P.Within m k ∧ k ≠ m) → (P.msg k).entry = false → False := by
            rintro k hk ⟨hw, hne⟩ hke
            obtain ⟨c, hc, hw'⟩ := child_of hP hm k hk hw hne
            have hce : (P.msg c).entry = false := by
              by_cases e : k = c
              · rw [← e]; exact hke
              · exact not_entry hP (nested_mem.mp hc).1 hk hw' e
            apply hcond
            simp only [Bool.or_eq_true, List.any_eq_true]
            exact .inr ⟨c, hc, by simp [hce]⟩
          refine .inr ⟨[], st, rfl, ⟨hu, fun _ h => h, fun _ _ => ⟨rfl, rfl⟩, ?_, ?_, fun _ _ => rfl⟩, ?_⟩
          · intro k hk hw hke; exact (no k hk hw hke).elim
          · intro k hk hw hke; exact (no k hk hw hke).elim
          · intro _ ctx _; exact .of_none (by simp)
      obtain ⟨r, hr, hbody⟩ := body
      simp only [hr]
      rcases hbody with ⟨h1, h2⟩ | ⟨es, st1, h1, em, g⟩
      · rw [h1]; exact .inl ⟨rfl, h2⟩
      · rw [h1]
        simp only [okBind]
        generalize hen : (if (P.msg m).hasEnums = true then [Event.enums m] else []) = enums
        have ahead0 : ∀ k, defined ((st.fwd m).map Event.fwd) k = 0 := by
          intro k; simp [defined, List.countP_map, List.countP_eq_zero]
        have enums0 : ∀ k, defined enums k = 0 := by
          intro k; subst hen; split <;> simp [defined]
        have enm : (P.msg m).hasEnums = true → Event.enums m ∈ enums := by
          intro h; subst hen; simp [h]
        have def1 : ∀ us k, defined [Event.define m us] k = if m = k then 1 else 0 := by
          intro us k; simp [defined, List.countP_cons]
        refine .inr ⟨_, st1, rfl, ⟨em.used, em.grow, em.off, ?_, ?_, ?_⟩, ?_⟩
        · intro k hk hw hke
          by_cases e : k = m
          · subst e
            exact ⟨⟨_, List.mem_append_right _ (List.mem_singleton.mpr rfl)⟩, fun h => by simp [enm h]⟩
          · obtain ⟨⟨us, a⟩, b⟩ := em.full k hk ⟨hw, e⟩ hke
            exact ⟨⟨us, by simp [a]⟩, fun h => by simp [b h]⟩
        · intro k hk hw hke
          simp only [defined_append, ahead0, enums0, def1]
          by_cases e : k = m
          · subst e
            rw [em.none k (fun h => h.2.1.2 rfl)]
            simp
          · rw [em.once k hk ⟨hw, e⟩ hke]
            have : ¬ m = k := fun h => e h.symm
            simp [this]
        · intro k hk
          simp only [defined_append, ahead0, enums0, def1]
          rw [em.none k (fun h => hk ⟨h.1, h.2.1.1, h.2.2⟩)]
          have : ¬ m = k := by
            rintro rfl
            exact hk ⟨hm, within_refl m, he'⟩
          simp [this]
        · intro hl ctx ho hneed
          have hnoahead : ∀ k us, Event.define k us ∉ (st.fwd m).map Event.fwd ++ enums := by
            intro k us h
            rcases List.mem_append.mp h with h | h
            · simp at h
            · subst hen; split at h <;> simp at h
          -- what is known after the declarations
          have known : ∀ x, P.Within x m → ((P.msg x).hasEnums = true → .enums x ∈ ctx ++ ((st.fwd m).map Event.fwd ++ enums)) ∧
              P.Met (ctx ++ ((st.fwd m).map Event.fwd ++ enums)) st x := by
            intro x hw
            by_cases e : x = m
            · subst e
              refine ⟨fun h => by simp [enm h], ?_⟩
              intro y hy
              rcases hneed y hy with r | ⟨a, b, c⟩
              · exact .inl (r.mono (by simp +contextual))
              · exact .inr ⟨a, by simp [b], c⟩
            · obtain ⟨a, b⟩ := ho x hw e
              exact ⟨fun h => by simp [a h], b.mono (by simp +contextual) (fun _ h => h)⟩
          have good1 : P.Good ctx ((st.fwd m).map Event.fwd ++ enums) := .of_none hnoahead
          refine Good.append (Good.append good1 (g hl _ known)) ?_
          intro a k us b e
          cases a with
          | cons e' a => simp at e
          | nil =>
            simp only [List.nil_append, List.cons.injEq, Event.define.injEq] at e
            obtain ⟨⟨rfl, rfl⟩, _⟩ := e
            refine ⟨st1, rfl, hm, he', fun i hi m t a b c d e => em.grow i (hs i hi m t a b c d e), ?_, ?_, ?_⟩
            · intro k hk hw hne hke
              obtain ⟨⟨us, p⟩, q⟩ := em.full k hk ⟨hw, hne⟩ hke
              exact ⟨⟨us, by simp [p]⟩, fun h => by simp [q h]⟩
            · intro x hw hx
              have := (known x hw).1 hx
              simp only [List.mem_append] at this
              rcases this with r | r | r <;> simp [r]
            · intro x hw
              refine (known x hw).2.mono (fun e he => ?_) em.grow
              simp only [List.append_nil, ← List.append_assoc] at he ⊢
              exact List.mem_append_left _ he

/-- Writing a file. -/
theorem emitFile_spec (hP : P.Ok) (st : State) (hf : Fresh P st) (file : Nat) :
    (P.emitFile st file = .ub ∧ ¬ P.ExtensionsSettled) ∨ ∃ es st', P.emitFile st file = .ok (es, st') ∧
      (∀ k < P.messages.length, (P.msg k).file = file → (P.msg k).entry = false → defined es k = 1) ∧
      (∀ k, ¬ (k < P.messages.length ∧ (P.msg k).file = file ∧ (P.msg k).entry = false) → defined es k = 0) ∧
      (P.Lone → P.Good [] es) := by
  unfold emitFile
  have below : ∀ m, P.Below st m := fun m k _ _ _ => ⟨hf.deps k, hf.fwd k⟩
  rcases order_spec hP (nested_scope file none) st hf.used (fun x _ => hf.deps x) with ⟨h1, h2⟩ | ⟨o, st1, h1, inv⟩
  · rw [h1]; exact .inl ⟨rfl, h2⟩
  · rw [h1]
    simp only [okBind]
    have perm : o.Perm (P.nested file none) := by simpa using inv.perm
    have omem : ∀ c, c ∈ o ↔ c ∈ P.nested file none := fun c => perm.mem_iff
    rcases emitList_spec hP (one := P.emit P.messages.length) o (perm.nodup_iff.mpr (nested_nodup _ _))
      (fun c hc => (nested_mem.mp ((omem c).mp hc)).1)
      (fun c hc d hd ne => nested_sib ((omem c).mp hc) ((omem d).mp hd) ne)
      (fun c hc => emit_spec hP _ c (nested_mem.mp ((omem c).mp hc)).1 (by omega)) st1 inv.used
      (fun i hi m t a b c d e => inv.grow i (hf.self i hi m t a b c d e)) (by
        intro c hc k hk hw hne
        have hcc := (omem c).mp hc
        have : k ∉ P.nested file none := by
          intro hk'
          exact sib_apart hP (nested_sib hcc hk' (fun e => hne e.symm)) hw (List.prefix_refl _)
        obtain ⟨a, b⟩ := inv.off k this
        rw [a, b]
        exact ⟨hf.deps k, hf.fwd k⟩) with ⟨h2, h3⟩ | ⟨es, st2, h2, em, g⟩
    · exact .inl ⟨h2, h3⟩
    · have region : ∀ k, k < P.messages.length → ((∃ c ∈ o, P.Within c k) ↔ (P.msg k).file = file) := by
        intro k hk
        constructor
        · rintro ⟨c, hc, hw⟩
          obtain ⟨h1, h2, h3⟩ := nested_mem.mp ((omem c).mp hc)
          rw [← h3, within_file hP k hk c h1 hw]
        · intro h
          obtain ⟨c, hc, hw⟩ := top_of hP k hk
          exact ⟨c, (omem c).mpr (by rw [← h]; exact hc), hw⟩
      refine .inr ⟨es, st2, h2, ?_, ?_, ?_⟩
      · intro k hk h he
        exact em.once k hk ((region k hk).mpr h) he
      · intro k hk
        apply em.none
        rintro ⟨a, b, c⟩
        exact hk ⟨a, (region k a).mp b, c⟩
      · intro hl
        apply g hl []
        · intro c hc x hw hne
          obtain ⟨h1, h2, h3⟩ := nested_mem.mp ((omem c).mp hc)
          by_cases hx : x < P.messages.length
          · exfalso
            rcases hP.enclosed c h1 x hx hw with h | ⟨p, hp, _⟩
            · exact hne h
            · rw [h2] at hp; cases hp
          · have e : P.msg x = ⟨[], 0, none, false, false⟩ := by simp [msg, List.getD, hx]
            refine ⟨by rw [e]; simp, ?_⟩
            intro y hy
            exact absurd hy.1.1 hx
        · intro a c b e y hy
          rcases inv.past hl a c b e y hy with r | r
          · exact .inr (.inl r)
          · exact .inr (.inr r)

end Schema
end HppProto.Gen
