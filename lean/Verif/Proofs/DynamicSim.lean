import Verif.Model.DynamicRead
import Verif.Proofs.ReadSafe

/-! Two computations step by step: the reader of generated messages and the reader of dynamic ones.
Helper lemmas for `Verif/Props/DynamicRead.lean`. -/

namespace HppProto
open Spec

/-- The first neither gets stuck nor is undefined; the second ends like it, with related results. Where the
first throws an exception the second goes on. -/
def DynSim {α β : Type} (P : α → β → Prop) : Res α → Res β → Prop
  | .ok x, b => ∃ y, b = .ok y ∧ P x y
  | .err _, b => ∃ e, b = .err e
  | .throw, b => (∃ e, b = .err e) ∨ ∃ x y, b = .ok y ∧ P x y
  | .ub, _ => False
  | .stuck, _ => False

section
variable {α β γ δ : Type} {P : α → β → Prop} {Q : γ → δ → Prop}

theorem dsim_ok {x : α} {y : β} (h : P x y) : DynSim P (.ok x) (.ok y) := ⟨y, rfl, h⟩

theorem dsim_err (e e' : Err) : DynSim P (.err e) (.err e') := ⟨e', rfl⟩

theorem dsim_throw {x : α} {y : β} (h : P x y) : DynSim P .throw (.ok y) := Or.inr ⟨x, y, rfl, h⟩

theorem DynSim.thrown {a : Res α} {b : Res β} (h : DynSim P a b) : DynSim P .throw b := by
  cases a with
  | ok x =>
    obtain ⟨y, h1, h2⟩ := h
    exact Or.inr ⟨x, y, h1, h2⟩
  | err e => exact Or.inl h
  | throw => exact h
  | ub => exact h.elim
  | stuck => exact h.elim

theorem DynSim.imp {P' : α → β → Prop} {a : Res α} {b : Res β} (h : DynSim P a b)
    (f : ∀ x y, b = .ok y → P x y → P' x y) : DynSim P' a b := by
  cases a with
  | ok x =>
    obtain ⟨y, h1, h2⟩ := h
    exact ⟨y, h1, f x y h1 h2⟩
  | err e => exact h
  | throw =>
    rcases h with h | ⟨x, y, h1, h2⟩
    · exact Or.inl h
    · exact Or.inr ⟨x, y, h1, f x y h1 h2⟩
  | ub => exact h.elim
  | stuck => exact h.elim

theorem dsim_bind {a : Res α} {b : Res β} {f : α → Res γ} {g : β → Res δ} (h : DynSim P a b)
    (hf : ∀ x y, P x y → DynSim Q (f x) (g y)) : DynSim Q (a >>= f) (b >>= g) := by
  show DynSim Q (Res.bind a f) (Res.bind b g)
  cases a with
  | ok x =>
    obtain ⟨y, h1, h2⟩ := h
    subst h1
    exact hf x y h2
  | err e =>
    obtain ⟨e', h1⟩ := h
    subst h1
    exact dsim_err _ _
  | throw =>
    rcases h with ⟨e, h1⟩ | ⟨x, y, h1, h2⟩
    · subst h1
      exact Or.inl ⟨e, rfl⟩
    · subst h1
      exact (hf x y h2).thrown
  | ub => exact h.elim
  | stuck => exact h.elim

/-- The same operation on both sides. -/
theorem dsim_op {x : Res α} (hx : x.Fine False) {f : α → Res γ} {g : α → Res δ}
    (hf : ∀ a, x = .ok a → DynSim Q (f a) (g a)) : DynSim Q (x >>= f) (x >>= g) := by
  show DynSim Q (Res.bind x f) (Res.bind x g)
  cases x with
  | ok a => exact hf a rfl
  | err e => exact dsim_err _ _
  | ub => exact absurd rfl hx.1
  | throw => exact (hx.2.2 rfl).elim
  | stuck => exact absurd rfl hx.2.1

theorem dsim_same {Q : α → α → Prop} {x : Res α} (hx : x.Fine False) (hf : ∀ a, x = .ok a → Q a a) :
    DynSim Q x x := by
  cases x with
  | ok a => exact dsim_ok (hf a rfl)
  | err e => exact dsim_err _ _
  | ub => exact absurd rfl hx.1
  | throw => exact (hx.2.2 rfl).elim
  | stuck => exact absurd rfl hx.2.1

theorem dsim_ite {c : Prop} [Decidable c] {a a' : Res α} {b b' : Res β} (h1 : c → DynSim P a b)
    (h2 : ¬c → DynSim P a' b') : DynSim P (if c then a else a') (if c then b else b') := by
  split
  · exact h1 ‹_›
  · exact h2 ‹_›

end

/-! ## Positions -/

/-- The second position is not before the first. -/
def NotBefore (s s' : Flat) : Prop := s'.rest.length ≤ s.rest.length

theorem NotBefore.refl (s : Flat) : NotBefore s s := Nat.le_refl _
theorem NotBefore.trans {s t u : Flat} (h : NotBefore s t) (h' : NotBefore t u) : NotBefore s u := Nat.le_trans h' h
theorem later_consume (s : Flat) (n : Nat) : NotBefore s (s.consume n) := by
  simp [NotBefore, Flat.consume]

theorem Adv.later {s s' : Flat} {bs} (h : Adv s bs s') : NotBefore s s' := by
  have := h.length
  unfold NotBefore
  omega

macro "laterOp" h:ident : tactic =>
  `(tactic| (simp only [flatOps] at $h:ident; repeat' split at $h:ident) <;>
    first | (cases $h:ident; exact later_consume _ _) | (cases $h:ident; exact NotBefore.refl _) | (cases $h:ident))

theorem later_readTag {s s' : Flat} {t} (h : flatOps.readTag s = .ok (s', t)) : NotBefore s s' := by laterOp h
theorem later_varint {ty} {s s' : Flat} {t} (h : flatOps.varint ty s = .ok (s', t)) : NotBefore s s' := by laterOp h
theorem later_bool {s s' : Flat} {t} (h : flatOps.bool s = .ok (s', t)) : NotBefore s s' := by laterOp h
theorem later_fixed {n} {s s' : Flat} {t} (h : flatOps.fixed n s = .ok (s', t)) : NotBefore s s' := by laterOp h
theorem later_raw {n} {s s' : Flat} {t} (h : flatOps.raw n s = .ok (s', t)) : NotBefore s s' := by laterOp h
theorem later_skip {n} {s s' : Flat} (h : flatOps.skip n s = .ok s') : NotBefore s s' := by laterOp h
theorem later_packedVarints {ty n c} {s s' : Flat} {t} (h : flatOps.packedVarints ty n c s = .ok (s', t)) :
    NotBefore s s' := by laterOp h
theorem later_packedBools {c} {s s' : Flat} {t} (h : flatOps.packedBools c s = .ok (s', t)) :
    NotBefore s s' := by laterOp h

theorem later_readBytes {C : Cfg} {u} {s s' : Flat} {t} (h : readBytes C flatOps u s = .ok (s', t)) : NotBefore s s' := by
  obtain ⟨p, v, _, _, a, _⟩ := (readBytes_iff C u).1 h
  exact a.later

theorem later_readScalar {C : Cfg} {sc tag} {s s' : Flat} {v} (h : readScalar C flatOps sc tag s = .ok (s', v)) :
    NotBefore s s' := by
  unfold readScalar at h
  split at h
  · cases h
  · cases sc <;> simp only [res_bind_ok] at h <;> obtain ⟨⟨t, x⟩, h1, h2⟩ := h <;>
      simp only [Res.ok.injEq, Prod.mk.injEq] at h2 <;> obtain ⟨rfl, rfl⟩ := h2
    · exact later_varint h1
    · exact later_bool h1
    · exact later_varint h1
    · exact later_fixed h1
    · exact later_fixed h1
    · exact later_readBytes h1

theorem later_packed {sc n} {s s' : Flat} {vs} (h : readPackedElems flatOps sc n s = .ok (s', vs)) : NotBefore s s' := by
  cases sc <;> simp only [readPackedElems] at h
  · simp only [res_bind_ok] at h
    obtain ⟨o, -, h⟩ := h
    cases o with
    | none => cases h
    | some c =>
      simp only [res_bind_ok] at h
      obtain ⟨⟨t, x⟩, h1, h2⟩ := h
      cases h2
      exact later_packedVarints h1
  · simp only [res_bind_ok] at h
    obtain ⟨o, -, h⟩ := h
    cases o with
    | none => cases h
    | some c =>
      simp only [res_bind_ok] at h
      obtain ⟨⟨t, x⟩, h1, h2⟩ := h
      cases h2
      exact later_packedBools h1
  · simp only [res_bind_ok] at h
    obtain ⟨o, -, h⟩ := h
    cases o with
    | none => cases h
    | some c =>
      simp only [res_bind_ok] at h
      obtain ⟨⟨t, x⟩, h1, h2⟩ := h
      cases h2
      exact later_packedVarints h1
  · split at h
    · simp only [res_bind_ok] at h
      obtain ⟨⟨t, x⟩, h1, h2⟩ := h
      cases h2
      exact later_raw h1
    · cases h
  · split at h
    · simp only [res_bind_ok] at h
      obtain ⟨⟨t, x⟩, h1, h2⟩ := h
      cases h2
      exact later_raw h1
    · cases h
  · cases h

theorem fine_packed {sc n} (hn : n ≠ 0) (s : Flat) {T : Prop} : (readPackedElems flatOps sc n s).Fine T := by
  cases sc <;> simp only [readPackedElems]
  · refine fine_bind (fine_numVarints hn _) (fun o _ => ?_)
    cases o
    · exact fine_err _
    · exact fine_bind (fine_packedVarints _ _ _ _) (fun _ _ => fine_ok _)
  · refine fine_bind (fine_numVarints hn _) (fun o _ => ?_)
    cases o
    · exact fine_err _
    · exact fine_bind (fine_packedBools _ _) (fun _ _ => fine_ok _)
  · refine fine_bind (fine_numVarints hn _) (fun o _ => ?_)
    cases o
    · exact fine_err _
    · exact fine_bind (fine_packedVarints _ _ _ _) (fun _ _ => fine_ok _)
  · exact fine_ite (fun _ => fine_bind (fine_raw _ _) (fun _ _ => fine_ok _)) (fun _ => fine_err _)
  · exact fine_ite (fun _ => fine_bind (fine_raw _ _) (fun _ _ => fine_ok _)) (fun _ => fine_err _)
  · exact fine_err _

theorem later_doSkip {l : Level Flat} {S : Sem} (A : Agrees l S) {h tag} (ht : isTag h tag) {s s' : Flat}
    (e : doSkipField flatOps l tag s = .ok s') : NotBefore s s' := by
  obtain ⟨r, -, -, -, -, k5⟩ := (A.skip ht _ _).1 e
  exact k5.later

/-- Nothing left to skip. -/
theorem doSkip_empty {l : Level Flat} {S : Sem} (F : FineL False l) (A : Agrees l S) {h tag} (ht : isTag h tag)
    {s : Flat} (hs : s.rest = []) : ∃ e, doSkipField flatOps l tag s = .err e := by
  have f := fine_doSkip F tag s
  cases e : doSkipField flatOps l tag s with
  | ok s' =>
    obtain ⟨r, k1, -, -, -, k5⟩ := (A.skip ht _ _).1 e
    have := payload_pos k1
    have := k5.length
    rw [hs] at this
    simp only [List.length_nil] at this
    omega
  | err e' => exact ⟨e', rfl⟩
  | ub => exact absurd e f.1
  | throw => exact (f.2.2 e).elim
  | stuck => exact absurd e f.2.1

/-! ## Counting and skipping do not read messages -/

section
variable {σ : Type} {O : Ops σ} {l l' : Level σ} (hs : l.skipGrp = l'.skipGrp)
include hs

theorem doSkip_level (tag) (s : σ) : doSkipField O l tag s = doSkipField O l' tag s := by
  unfold doSkipField
  rw [hs]

theorem countUnpacked_level (tag) : ∀ fuel c (s : σ),
    countUnpackedLoop O l tag fuel c s = countUnpackedLoop O l' tag fuel c s
  | 0, _, _ => rfl
  | fuel + 1, c, s => by
    simp only [countUnpackedLoop, doSkip_level hs, countUnpacked_level tag fuel]

theorem countGroups_level (tag) : ∀ fuel c (s : σ),
    countGroupsLoop O l tag fuel c s = countGroupsLoop O l' tag fuel c s
  | 0, _, _ => rfl
  | fuel + 1, c, s => by
    simp only [countGroupsLoop, hs, countGroups_level tag fuel]

theorem skipGroup_level (number) : ∀ fuel (s : σ),
    skipGroupLoop O l number fuel s = skipGroupLoop O l' number fuel s
  | 0, _ => rfl
  | fuel + 1, s => by
    simp only [skipGroupLoop, doSkip_level hs, skipGroup_level number fuel]

end

theorem skipGrp_level {σ : Type} (O : Ops σ) (C C' : Cfg) : ∀ d, (level C O d).skipGrp = (level C' O d).skipGrp
  | 0 => rfl
  | d + 1 => by
    funext number s
    exact skipGroup_level (skipGrp_level O C C' d) number _ s

theorem skipCfg_fine (d : Nat) : FineL False (level skipCfg flatOps d) := by
  have h := level_fine skipCfg d
  have e : ClosedInOneof skipCfg = False := by
    apply propext
    constructor
    · rintro ⟨id, alts, a, h, -⟩
      simp [skipCfg] at h
    · exact False.elim
  rwa [e] at h

/-! ## Counting for any tag -/

theorem fine_countGroups {l : Level Flat} (F : FineL False l)
    (A : ∀ number s s', l.skipGrp number s = .ok s' → s'.rest.length < s.rest.length) (tag) :
    ∀ fuel c (s : Flat), s.rest.length < fuel → (countGroupsLoop flatOps l tag fuel c s).Fine False
  | 0, c, s, hf => by omega
  | fuel + 1, c, s, hf => by
    simp only [countGroupsLoop]
    refine fine_bind (F.skipGrp _ _) (fun t h1 => fine_ite (fun _ => fine_ok _) (fun _ => ?_))
    refine fine_bind (fine_readTag _) (fun p h2 => fine_ite (fun he => ?_) (fun _ => fine_ok _))
    obtain ⟨u, t'⟩ := p
    have := A _ _ _ h1
    have := later_readTag h2
    unfold NotBefore at this
    exact fine_countGroups F A tag fuel _ u (by omega)

theorem count_pos {l : Level Flat} {tag} : ∀ fuel c (s : Flat) n,
    countUnpackedLoop flatOps l tag fuel c s = .ok n → c < n
  | 0, c, s, n, h => by cases h
  | fuel + 1, c, s, n, h => by
    simp only [countUnpackedLoop, res_bind_ok] at h
    obtain ⟨t, -, h⟩ := h
    split at h
    · cases h; omega
    · simp only [res_bind_ok] at h
      obtain ⟨⟨u, t'⟩, -, h⟩ := h
      simp only at h
      split at h
      · have := count_pos fuel (c + 1) u n h
        omega
      · cases h; omega

theorem countGroups_pos {l : Level Flat} {tag} : ∀ fuel c (s : Flat) n,
    countGroupsLoop flatOps l tag fuel c s = .ok n → c < n
  | 0, c, s, n, h => by cases h
  | fuel + 1, c, s, n, h => by
    simp only [countGroupsLoop, res_bind_ok] at h
    obtain ⟨t, -, h⟩ := h
    split at h
    · cases h; omega
    · simp only [res_bind_ok] at h
      obtain ⟨⟨u, t'⟩, -, h⟩ := h
      simp only at h
      split at h
      · have := countGroups_pos fuel (c + 1) u n h
        omega
      · cases h; omega

theorem skipGrp_consumes (C : Cfg) (d : Nat) : ∀ number s s',
    (level C flatOps d).skipGrp number s = .ok s' → s'.rest.length < s.rest.length := by
  intro number s s' h
  obtain ⟨body, tail, -, -, ⟨e, ht, -⟩, a⟩ := (skipGrp_iff C d number s s').1 h
  have := isTag_pos ht
  have := a.length
  simp only [List.length_append] at this
  omega

end HppProto
