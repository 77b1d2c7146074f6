import Verif.Proofs.RegOps
/-! # Simulation of the contiguous archive by the region machine: single operations -/
namespace HppProto
open Spec

/-- How a run of the region machine (`x`) compares with one of the contiguous archive (`y`):
it is safe; where both succeed their results are related by `Q`; a success of only one of
them leaves the region machine past its limit (`D`), or the contiguous archive at bytes that
cannot be a tag (`E`). -/
def Sim {β γ} (T : Prop) (Q : β → γ → Prop) (D : β → Prop) (E : γ → Prop) (x : Res β) (y : Res γ) : Prop :=
  x.Fine T ∧
  (∀ c, y = .ok c → (∃ b, x = .ok b ∧ Q b c) ∨ (E c ∧ ∀ b, x = .ok b → D b)) ∧
  (∀ b, x = .ok b → (∃ c, y = .ok c ∧ Q b c) ∨ D b)

/-- A safe run that can only end in `D`. -/
def Out {β} (T : Prop) (D : β → Prop) (x : Res β) : Prop := x.Fine T ∧ ∀ b, x = .ok b → D b

section
variable {T : Prop} {β γ β' γ' : Type} {Q : β → γ → Prop} {D : β → Prop} {E : γ → Prop}
  {Q' : β' → γ' → Prop} {D' : β' → Prop} {E' : γ' → Prop}

theorem Sim.ok {b : β} {c : γ} (h : Q b c) : Sim T Q D E (.ok b) (.ok c) :=
  ⟨fine_ok _, fun _ hc => by cases hc; exact .inl ⟨b, rfl, h⟩, fun _ hb => by cases hb; exact .inl ⟨c, rfl, h⟩⟩

theorem Sim.err {e e' : Err} : Sim T Q D E (.err e) (.err e') :=
  ⟨fine_err _, fun _ hc => (by cases hc), fun _ hb => (by cases hb)⟩

theorem Sim.throw (h : T) {y : Res γ} (hy : ∀ c, y ≠ .ok c) : Sim T Q D E .throw y :=
  ⟨fine_throw h, fun _ hc => absurd hc (hy _), fun _ hb => (by cases hb)⟩

theorem Sim.dead {x : Res β} {y : Res γ} (h : Out T D x) (hy : ∀ c, y ≠ .ok c) : Sim T Q D E x y :=
  ⟨h.1, fun _ hc => absurd hc (hy _), fun _ hb => .inr (h.2 _ hb)⟩

theorem Sim.doomed {x : Res β} {c : γ} (h : Out T D x) (hc : E c) : Sim T Q D E x (.ok c) :=
  ⟨h.1, fun _ e => by cases e; exact .inr ⟨hc, h.2⟩, fun _ hb => .inr (h.2 _ hb)⟩

theorem Out.ok {b : β} (h : D b) : Out T D (.ok b) := ⟨fine_ok _, fun _ e => by cases e; exact h⟩
theorem Out.err {e : Err} : Out T D (.err e : Res β) := ⟨fine_err _, fun _ h => by cases h⟩

theorem Out.mono {D₂ : β → Prop} {x : Res β} (h : Out T D x) (hd : ∀ b, x = .ok b → D b → D₂ b) : Out T D₂ x :=
  ⟨h.1, fun b e => hd b e (h.2 b e)⟩

theorem Sim.mono {Q₂ : β → γ → Prop} {D₂ : β → Prop} {E₂ : γ → Prop} {x y} (h : Sim T Q D E x y)
    (hq : ∀ b c, x = .ok b → y = .ok c → Q b c → Q₂ b c) (hd : ∀ b, x = .ok b → D b → D₂ b)
    (he : ∀ c, y = .ok c → E c → E₂ c) : Sim T Q₂ D₂ E₂ x y := by
  refine ⟨h.1, fun c e => ?_, fun b e => ?_⟩
  · rcases h.2.1 c e with ⟨b, e2, q⟩ | ⟨h1, h2⟩
    · exact .inl ⟨b, e2, hq b c e2 e q⟩
    · exact .inr ⟨he c e h1, fun b e2 => hd b e2 (h2 b e2)⟩
  · rcases h.2.2 b e with ⟨c, e2, q⟩ | h1
    · exact .inl ⟨c, e2, hq b c e e2 q⟩
    · exact .inr (hd b e h1)

theorem Out.bind {x : Res β} {k : β → Res β'} (h : Out T D x) (hk : ∀ b, x = .ok b → D b → Out T D' (k b)) :
    Out T D' (x >>= k) := by
  refine ⟨fine_bind h.1 (fun b e => (hk b e (h.2 b e)).1), fun b' e => ?_⟩
  obtain ⟨b, e1, e2⟩ := res_bind_ok.1 e
  exact (hk b e1 (h.2 b e1)).2 b' e2

theorem Sim.bind {x : Res β} {y : Res γ} {k : β → Res β'} {kf : γ → Res γ'} (h : Sim T Q D E x y)
    (hq : ∀ b c, x = .ok b → y = .ok c → Q b c → Sim T Q' D' E' (k b) (kf c))
    (hd : ∀ b, x = .ok b → D b → Out T D' (k b))
    (he : ∀ c, y = .ok c → E c → ∀ d, kf c = .ok d → E' d) : Sim T Q' D' E' (x >>= k) (y >>= kf) := by
  refine ⟨fine_bind h.1 (fun b e => ?_), fun d e => ?_, fun b' e => ?_⟩
  · rcases h.2.2 b e with ⟨c, e2, q⟩ | h1
    · exact (hq b c e e2 q).1
    · exact (hd b e h1).1
  · obtain ⟨c, e1, e2⟩ := res_bind_ok.1 e
    rcases h.2.1 c e1 with ⟨b, e3, q⟩ | ⟨h1, h2⟩
    · have hs := hq b c e3 e1 q
      rcases hs.2.1 d e2 with ⟨b', e4, q'⟩ | ⟨h3, h4⟩
      · exact .inl ⟨b', res_bind_ok.2 ⟨b, e3, e4⟩, q'⟩
      · refine .inr ⟨h3, fun b' e5 => ?_⟩
        obtain ⟨b2, e6, e7⟩ := res_bind_ok.1 e5
        rw [e3] at e6
        cases e6
        exact h4 b' e7
    · refine .inr ⟨he c e1 h1 d e2, fun b' e5 => ?_⟩
      obtain ⟨b2, e6, e7⟩ := res_bind_ok.1 e5
      exact (hd b2 e6 (h2 b2 e6)).2 b' e7
  · obtain ⟨b, e1, e2⟩ := res_bind_ok.1 e
    rcases h.2.2 b e1 with ⟨c, e3, q⟩ | h1
    · rcases (hq b c e1 e3 q).2.2 b' e2 with ⟨d, e4, q'⟩ | h2
      · exact .inl ⟨d, res_bind_ok.2 ⟨c, e3, e4⟩, q'⟩
      · exact .inr h2
    · exact .inr ((hd b e1 h1).2 b' e2)

end

/-! ## States -/

variable (H : Mems) (tot : List Byte) (contig : Bool)

/-- Inside the limit, at the same place as the contiguous archive. -/
def R (G : Ghost) (s : Arch) (f : Flat) : Prop := ∃ r L p n, On H tot contig G s r L p n ∧ f = flatAt tot p n

/-- The same, at least `w` bytes after the start of the region and at most `k` after the
start of the slope. -/
def RV (G : Ghost) (w k : Nat) (s : Arch) (f : Flat) : Prop :=
  ∃ r L p n, On H tot contig G s r L p n ∧ f = flatAt tot p n ∧ r.beg + w ≤ s.cur.beg ∧ s.cur.beg ≤ r.slope + k ∧
    s.cur.beg ≤ s.cur.fin

/-- Past the limit after a tag that crossed it. -/
def DV (G : Ghost) (s : Arch) : Prop :=
  ∃ r L, Win H tot contig s r L ∧ s.left < 0 ∧ s.cur.beg ≤ r.slope + 5 ∧ s.cur.beg ≤ s.cur.fin ∧ s.sec ≤ G.q ∧
    (G.lim : Int) - s.left = L + (s.cur.beg - r.beg)

/-- Past the limit, not too far. -/
def DE (k : Nat) (s : Arch) : Prop :=
  ∃ r L, Win H tot contig s r L ∧ s.left < 0 ∧ (s.rest = [] → s.cur.beg ≤ r.slope + k) ∧
    (s.rest ≠ [] → s.cur.beg ≤ s.cur.slope + 16)

/-- Past the limit after skipping, still inside the input. -/
def DS (G : Ghost) (s : Arch) : Prop :=
  DE H tot contig 0 s ∧ 0 < G.q ∧ (G.lim : Int) - s.left ≤ tot.length ∧ contig = false

/-- Past the limit in the last region. -/
def DL (k : Nat) (s : Arch) : Prop :=
  ∃ r L, Win H tot contig s r L ∧ s.left < 0 ∧ s.rest = [] ∧ s.cur.beg ≤ r.slope + k

variable {H tot contig}
variable {G : Ghost} {s : Arch} {f : Flat}

theorem RV.toR {w k} (h : RV H tot contig G w k s f) : R H tot contig G s f := by
  obtain ⟨r, L, p, n, h, e, -⟩ := h
  exact ⟨r, L, p, n, h, e⟩

theorem RV.mono {w k w' k'} (h : RV H tot contig G w k s f) (hw : w' ≤ w) (hk : k ≤ k') : RV H tot contig G w' k' s f := by
  obtain ⟨r, L, p, n, h, e, h1, h2, h3⟩ := h
  exact ⟨r, L, p, n, h, e, by omega, by omega, h3⟩

theorem DE.mono {k k'} (h : DE H tot contig k s) (hk : k ≤ k') : DE H tot contig k' s := by
  obtain ⟨r, L, h, e, h1, h2⟩ := h
  exact ⟨r, L, h, e, fun e => by have := h1 e; omega, h2⟩

theorem DL.toDE {k} (h : DL H tot contig k s) : DE H tot contig k s := by
  obtain ⟨r, L, h, e, h1, h2⟩ := h
  exact ⟨r, L, h, e, fun _ => h2, fun e => absurd h1 e⟩

theorem DE.avail {k} (h : DE H tot contig k s) : s.avail contig < 0 := by
  obtain ⟨r, L, h, e, -⟩ := h
  rw [h.avail]; exact e

theorem DV.avail (h : DV H tot contig G s) : s.avail contig < 0 := by
  obtain ⟨r, L, h, e, -⟩ := h
  rw [h.avail]; exact e

theorem R.avail (h : R H tot contig G s f) : s.avail contig = f.rest.length := by
  obtain ⟨r, L, p, n, h, rfl⟩ := h
  rw [h.avail, flatAt_length h.bound]

theorem R.fuel (h : R H tot contig G s f) : fuelOf (regOps H contig) s = fuelOf flatOps f := by
  show (s.avail contig).toNat + 1 = _
  rw [h.avail]
  rfl

/-- In a state past the limit but before the end of the region, the region is uncut. -/
theorem Win.crossed {r L} (h : Win H tot contig s r L) (hl : s.left < 0) (hf : s.cur.beg ≤ s.cur.fin) :
    s.rest ≠ [] ∧ s.cur.fin = r.fin ∧ 0 < s.sec ∧ contig = false ∧ r.fin = r.slope + 16 ∧ s.cur.slope = r.slope := by
  unfold Arch.left at hl
  rcases h.form with f | ⟨f1, f2, f3⟩
  · omega
  · have w := h.wide f3
    have hs := h.slope
    refine ⟨f3, f1, f2, ?_, w, by omega⟩
    cases hc : contig with
    | false => rfl
    | true => have := (h.ctg hc).1; omega

theorem DV.consume (h : DV H tot contig G s) {k : Nat} (hk : s.cur.beg + k ≤ s.cur.fin) : DS H tot contig G (s.consume k) := by
  obtain ⟨r, L, h, hl, h1, h2, h3, h4⟩ := h
  obtain ⟨c1, c2, c3, c4, c5, c6⟩ := h.crossed hl h2
  have hb := h.beg
  have hlen := (lay_facts h.lay).len
  refine ⟨⟨r, L, h.consume (by omega), by rw [consume_left]; omega, fun e => absurd e c1, fun _ => ?_⟩, by omega, ?_, c4⟩
  · simp only [Arch.consume, Region.consume]; omega
  · rw [consume_left]; omega

theorem DV.checked (h : DV H tot contig G s) {α} {P : Mem → Option Nat × α} {m : Nat} (hm : m ≤ 11)
    (hP : ∀ g, (P g).1 = varintLen g m) :
    checked H s m (P (H.view s.cur)) = .ok none ∨
    ∃ (k : Nat) (v : α), checked H s m (P (H.view s.cur)) = .ok (some (s.consume k, v)) ∧ DS H tot contig G (s.consume k) ∧
      s.cur.beg + k ≤ s.cur.fin := by
  have h' := h
  obtain ⟨r, L, h, hl, h1, h2, h3, h4⟩ := h
  rcases hx : P (H.view s.cur) with ⟨o, v⟩
  have ho : o = varintLen (H.view s.cur) m := by rw [← hP, hx]
  cases o with
  | none => left; simp [HppProto.checked, h.good (k := m) (by omega)]
  | some k =>
    have hkm := (varintLen_some.1 ho.symm).2
    by_cases hle : s.cur.beg + k ≤ s.cur.fin
    · right
      exact ⟨k, v, by simp [HppProto.checked, h.good (k := k) (by omega), hle], h'.consume hle, hle⟩
    · left; simp [HppProto.checked, h.good (k := k) (by omega), hle]

theorem DL.checked {k} (h : DL H tot contig k s) {α} {P : Mem → Option Nat × α} {m : Nat} (hm : k + m ≤ 16)
    (hP : ∀ g, (P g).1 = varintLen g m) : checked H s m (P (H.view s.cur)) = .ok none := by
  obtain ⟨r, L, h, hl, h1, h2⟩ := h
  rcases hx : P (H.view s.cur) with ⟨o, v⟩
  have ho : o = varintLen (H.view s.cur) m := by rw [← hP, hx]
  cases o with
  | none => simp [HppProto.checked, h.good (k := m) (by omega)]
  | some k =>
    have hkm := (varintLen_some.1 ho.symm).2
    obtain ⟨a, b, c⟩ := h.last h1
    unfold Arch.left at hl
    have hle : ¬ s.cur.beg + k ≤ s.cur.fin := by omega
    simp [HppProto.checked, h.good (k := k) (by omega), hle]

theorem DE.advance {k} (h : DE H tot contig k s) : DL H tot contig k s.advance ∧ s.advance.left = s.left := by
  obtain ⟨r, L, h, hl, h1, h2⟩ := h
  by_cases e : s.rest = []
  · rw [advance_nil e]
    exact ⟨⟨r, L, h, hl, e, h1 e⟩, rfl⟩
  · obtain ⟨r', L', a, b, c, d, g, i⟩ := Win.advance_dead rfl e h hl (h2 e)
    have := h2 e
    exact ⟨⟨r', L', a, by rw [b]; exact hl, d, by omega⟩, b⟩

/-! ## Operations -/

variable {T : Prop}

/-- Bytes are left, but they do not start with a tag. -/
def Doomed (f : Flat) : Prop := f.rest ≠ [] ∧ rdTag f.rest = none

theorem readTag_congr {g g' : Mem} {n : Nat} (h : ∀ i, i < n → g i = g' i) (hl : varintLen g 5 = some n) :
    readTag g' = readTag g := by
  unfold readTag
  rw [shiftMix_congr .tag h hl]

theorem parseBool_congr {g g' : Mem} {n : Nat} (h : ∀ i, i < n → g i = g' i) (hl : varintLen g 10 = some n) :
    parseBool g' = parseBool g := by
  have h1 := parseBool_spec g
  have h2 := parseBool_spec g'
  have h3 := varintLen_congr h hl
  apply Prod.ext
  · rw [h1.1, h2.1, h3, hl]
  · rw [h1.2 _ hl, h2.2 _ h3, varintVal_congr _ h]

theorem On.win_slope {r L p n} (h : On H tot contig G s r L p n) (hb : s.cur.beg ≤ s.cur.slope) :
    s.cur.beg ≤ r.slope ∧ s.cur.beg ≤ s.cur.fin := by
  have := h.at_.slope
  omega

/-- A step across the limit. -/
theorem On.cross {r L p n} (h : On H tot contig G s r L p n) {k : Nat} (hn : n < k) (hk : s.cur.beg + k ≤ s.cur.fin) :
    s.cur.beg + k ≤ r.slope + 16 ∧ (s.consume k).left < 0 ∧
    ((s.cur.beg + k ≤ r.slope + 5) → DV H tot contig G (s.consume k)) ∧ DS H tot contig G (s.consume k) := by
  have hb := h.at_.beg
  have w : Win H tot contig (s.consume k) r L := h.at_.consume (by omega)
  have hl : (s.consume k).left < 0 := by rw [consume_left, ← h.left]; omega
  obtain ⟨c1, c2, c3, c4, c5, c6⟩ := w.crossed hl (by simp only [Arch.consume, Region.consume]; omega)
  simp only [Arch.consume, Region.consume] at c2 c6 c3
  have hsec := h.sec
  have hp := h.pos
  have hlim := h.lim
  have hleft := h.left
  have hlen := (lay_facts h.at_.lay).len
  have e : (G.lim : Int) - (s.consume k).left = L + (s.cur.beg + k - r.beg) := by
    rw [consume_left]; omega
  refine ⟨by omega, hl, fun h5 => ⟨r, L, w, hl, h5, hk, hsec, e⟩, ⟨r, L, w, hl, fun e => absurd e c1, fun _ => ?_⟩, by omega, by omega, c4⟩
  simp only [Arch.consume, Region.consume]; omega

/-- Results of `read_tag` on the two archives. -/
def QTag (H : Mems) (tot : List Byte) (contig : Bool) (G : Ghost) (b : Arch × BitVec 32) (c : Flat × BitVec 32) : Prop :=
  b.2 = c.2 ∧ R H tot contig G b.1 c.1 ∧ (c.2 ≠ 0#32 → RV H tot contig G (varintSize 32 c.2.toNat) 5 b.1 c.1)

theorem reg_readTag (H : Mems) (contig : Bool) (s : Arch) : (regOps H contig).readTag s =
    (checked H s.advance 5 (readTag (H.view s.advance.cur)) >>= fun o => match o with
      | some x => .ok x
      | none => .ok (s.advance, 0)) := rfl

theorem sim_readTag (h : R H tot contig G s f) :
    Sim T (QTag H tot contig G) (fun b => DV H tot contig G b.1) (fun c => c.2 = 0#32 ∧ Doomed c.1 ∧ c.1 = f)
      ((regOps H contig).readTag s) (flatOps.readTag f) := by
  obtain ⟨r, L, p, n, h, rfl⟩ := h
  obtain ⟨r, L, h, hb⟩ := h.advance
  rw [reg_readTag]
  show Sim _ _ _ _ _ (match rdTag (flatAt tot p n).rest with
    | some (n', t) => Res.ok ((flatAt tot p n).consume n', t)
    | none => .ok (flatAt tot p n, 0))
  obtain ⟨b1, b2⟩ := h.win_slope hb
  have hlen := flatAt_length h.bound
  rcases checked_live (P := readTag) (m := 5) readTag_fst (fun g g' k h1 h2 => readTag_congr h1 h2) h (by omega) b2 with
    ⟨k, v, e1, k1, k2, k3, e2, e3⟩ | ⟨e1, e2⟩
  · have er : rdTag (flatAt tot p n).rest = some (k, v) := by unfold rdTag; rw [e1]; simp [hlen, k2]
    rw [e2, er]
    obtain ⟨bs, more, -, hk, ht⟩ := rdTag_iff.1 er
    have hsz := isTag_size ht
    have hbeg := h.at_.beg
    refine Sim.ok ⟨rfl, ⟨r, L, _, _, h.consume k2, flatAt_consume k2 h.bound⟩,
      fun _ => ⟨r, L, _, _, h.consume k2, flatAt_consume k2 h.bound, ?_, ?_, ?_⟩⟩ <;>
      simp only [Arch.consume, Region.consume] <;> omega
  · have er : rdTag (flatAt tot p n).rest = none := by
      unfold rdTag
      rcases hx : readTag (memOf (flatAt tot p n).rest) with ⟨o, v⟩
      cases o with
      | none => rfl
      | some k => have := e1 k v hx; simp [hlen]; omega
    rw [er]
    rcases e2 with e2 | ⟨k, v, e2, c1, c2, c3, c4, c5, c6, c7, c8⟩
    · rw [e2]
      exact Sim.ok ⟨rfl, ⟨r, L, p, n, h, rfl⟩, fun h => absurd rfl h⟩
    · rw [e2]
      refine Sim.doomed (Out.ok ?_) ⟨rfl, ⟨?_, er⟩, rfl⟩
      · exact (h.cross c1 c4).2.2.1 (by omega)
      · have hl := h.left
        unfold Arch.left at hl
        intro e0
        rw [e0] at hlen
        simp at hlen
        omega

/-- `read_tag` past the limit. -/
theorem de_readTag {k} (h : DE H tot contig k s) (hk : k ≤ 8) :
    (regOps H contig).readTag s = .ok (s.advance, 0#32) := by
  rw [reg_readTag, h.advance.1.checked (by omega) readTag_fst]
  rfl

theorem reg_matchTag (H : Mems) (contig : Bool) (s : Arch) (tag : BitVec 32) : (regOps H contig).matchTag s tag =
    (checked H s.advance 5 (shiftMix .tag (H.view s.advance.cur)) >>= fun o => match o with
      | some (s', res) => if res.toInt = (tag.toNat : Int) then .ok (s', true) else .ok (s.advance, false)
      | none => .ok (s.advance, false)) := rfl

theorem sim_matchTag (tag : BitVec 32) (h : R H tot contig G s f) :
    Sim T (fun b c => b.2 = c.2 ∧ R H tot contig G b.1 c.1 ∧ (c.2 = true → RV H tot contig G 0 5 b.1 c.1))
      (fun b => b.2 = true ∧ DV H tot contig G b.1) (fun c => c.2 = false ∧ Doomed c.1)
      ((regOps H contig).matchTag s tag) (flatOps.matchTag f tag) := by
  obtain ⟨r, L, p, n, h, rfl⟩ := h
  obtain ⟨r, L, h, hb⟩ := h.advance
  rw [reg_matchTag]
  show Sim _ _ _ _ _ (match rdMatch (flatAt tot p n).rest tag with
    | some n' => Res.ok ((flatAt tot p n).consume n', true)
    | none => .ok (flatAt tot p n, false))
  obtain ⟨b1, b2⟩ := h.win_slope hb
  have hlen := flatAt_length h.bound
  rcases checked_live (P := shiftMix .tag) (m := 5) (fun g => (shiftMix_spec .tag g).1)
    (fun g g' k h1 h2 => shiftMix_congr .tag h1 h2) h (by omega) b2 with
    ⟨k, v, e1, k1, k2, k3, e2, e3⟩ | ⟨e1, e2⟩
  · rw [e2]
    by_cases hv : v.toInt = (tag.toNat : Int)
    · have er : rdMatch (flatAt tot p n).rest tag = some k := by unfold rdMatch matchTag; rw [e1]; simp [hlen, k2, hv]
      rw [er]
      show Sim _ _ _ _ (if v.toInt = (tag.toNat : Int) then _ else _) _
      rw [if_pos hv]
      have hbeg := h.at_.beg
      refine Sim.ok ⟨rfl, ⟨r, L, _, _, h.consume k2, flatAt_consume k2 h.bound⟩,
        fun _ => ⟨r, L, _, _, h.consume k2, flatAt_consume k2 h.bound, ?_, ?_, ?_⟩⟩ <;>
        simp only [Arch.consume, Region.consume] <;> omega
    · have er : rdMatch (flatAt tot p n).rest tag = none := by unfold rdMatch matchTag; rw [e1]; simp [hv]
      rw [er]
      show Sim _ _ _ _ (if v.toInt = (tag.toNat : Int) then _ else _) _
      rw [if_neg hv]
      exact Sim.ok ⟨rfl, ⟨r, L, p, n, h, rfl⟩, fun h => by cases h⟩
  · have er : rdMatch (flatAt tot p n).rest tag = none := by
      unfold rdMatch matchTag
      rcases hx : shiftMix .tag (memOf (flatAt tot p n).rest) with ⟨o, v⟩
      cases o with
      | none => rfl
      | some k =>
        have := e1 k v hx
        by_cases hv : v.toInt = (tag.toNat : Int)
        · simp [hlen, hv]; omega
        · simp [hv]
    have er2 : rdTag (flatAt tot p n).rest = none := by
      unfold rdTag readTag
      rcases hx : shiftMix .tag (memOf (flatAt tot p n).rest) with ⟨o, v⟩
      cases o with
      | none => rfl
      | some k => have := e1 k v hx; simp [hlen]; omega
    rw [er]
    rcases e2 with e2 | ⟨k, v, e2, c1, c2, c3, c4, c5, c6, c7, c8⟩
    · rw [e2]
      exact Sim.ok ⟨rfl, ⟨r, L, p, n, h, rfl⟩, fun h => by cases h⟩
    · rw [e2]
      show Sim _ _ _ _ (if v.toInt = (tag.toNat : Int) then _ else _) _
      by_cases hv : v.toInt = (tag.toNat : Int)
      · rw [if_pos hv]
        refine Sim.doomed (Out.ok ⟨rfl, ?_⟩) ⟨rfl, ?_, er2⟩
        · exact (h.cross c1 c4).2.2.1 (by omega)
        · have hl := h.left
          unfold Arch.left at hl
          intro e0
          rw [e0] at hlen
          simp at hlen
          omega
      · rw [if_neg hv]
        exact Sim.ok ⟨rfl, ⟨r, L, p, n, h, rfl⟩, fun h => by cases h⟩

theorem de_matchTag {k} (h : DE H tot contig k s) (hk : k ≤ 8) (tag : BitVec 32) :
    (regOps H contig).matchTag s tag = .ok (s.advance, false) := by
  rw [reg_matchTag, h.advance.1.checked (m := 5) (by omega) (fun g => (shiftMix_spec .tag g).1)]
  rfl

theorem reach_eq (ty : MixTy) : ty.reach = ty.maxLen := by cases ty <;> rfl
theorem mix_le (ty : VarTy) : ty.mix.maxLen ≤ 10 := by cases ty <;> decide

theorem reg_varint (H : Mems) (contig : Bool) (ty : VarTy) (s : Arch) : (regOps H contig).varint ty s =
    checkedErr H s ty.mix.maxLen (ty.parse (H.view s.cur)) := by
  rw [← reach_eq]; rfl

/-- A parse of the contiguous archive followed by the test of the end. -/
def Flat.checked {α} (f : Flat) (p : Option Nat × α) : Res (Flat × α) :=
  match p with
  | (some k, v) => if k ≤ f.rest.length then .ok (f.consume k, v) else .err .badMessage
  | (none, _) => .err .badMessage

theorem sim_checkedErr {α} {P : Mem → Option Nat × α} {m : Nat} (hm : m ≤ 10) (hP : ∀ g, (P g).1 = varintLen g m)
    (hC : ∀ g g' k, (∀ i, i < k → g i = g' i) → varintLen g m = some k → P g' = P g)
    {w} (h : RV H tot contig G w 5 s f) :
    Sim T (fun b c => b.2 = c.2 ∧ RV H tot contig G 0 (5 + m) b.1 c.1) (fun b => DS H tot contig G b.1) (fun _ => False)
      (checkedErr H s m (P (H.view s.cur)))
      (f.checked (P (memOf f.rest))) := by
  obtain ⟨r, L, p, n, h, rfl, b1, b2, b3⟩ := h
  have hlen := flatAt_length h.bound
  unfold checkedErr
  rcases checked_live hP hC h (by omega) b3 with ⟨k, v, e1, k1, k2, k3, e2, e3⟩ | ⟨e1, e2⟩
  · rw [e2, e1]
    simp only [Flat.checked, hlen, if_pos k2]
    have hbeg := h.at_.beg
    refine Sim.ok ⟨rfl, r, L, _, _, h.consume k2, flatAt_consume k2 h.bound, ?_, ?_, ?_⟩ <;>
      simp only [Arch.consume, Region.consume] <;> omega
  · have er : ∀ c, (flatAt tot p n).checked (P (memOf (flatAt tot p n).rest)) ≠ .ok c := by
      intro c
      rcases hx : P (memOf (flatAt tot p n).rest) with ⟨o, v⟩
      cases o with
      | none => simp [Flat.checked]
      | some k => have := e1 k v hx; simp only [Flat.checked, hlen]; rw [if_neg (by omega)]; simp
    refine Sim.dead ?_ er
    rcases e2 with e2 | ⟨k, v, e2, c1, c2, c3, c4, c5, c6, c7, c8⟩
    · rw [e2]; exact Out.err
    · rw [e2]; exact Out.ok (h.cross c1 c4).2.2.2

theorem flat_varint (ty : VarTy) (f : Flat) : flatOps.varint ty f = f.checked (ty.parse (memOf f.rest)) := by
  show (match rdVarint ty f.rest with
    | some (n, v) => Res.ok (f.consume n, v)
    | none => .err .badMessage) = _
  unfold rdVarint
  rcases ty.parse (memOf f.rest) with ⟨o, v⟩
  cases o with
  | none => rfl
  | some k => by_cases h : k ≤ f.rest.length <;> simp [Flat.checked, h]

theorem flat_bool (f : Flat) : flatOps.bool f = f.checked (parseBool (memOf f.rest)) := by
  show (match rdBool f.rest with
    | some (n, v) => Res.ok (f.consume n, v)
    | none => .err .badMessage) = _
  unfold rdBool
  rcases parseBool (memOf f.rest) with ⟨o, v⟩
  cases o with
  | none => rfl
  | some k => by_cases h : k ≤ f.rest.length <;> simp [Flat.checked, h]

theorem sim_varint (ty : VarTy) {w} (h : RV H tot contig G w 5 s f) :
    Sim T (fun b c => b.2 = c.2 ∧ RV H tot contig G 0 (5 + ty.mix.maxLen) b.1 c.1) (fun b => DS H tot contig G b.1)
      (fun _ => False) ((regOps H contig).varint ty s) (flatOps.varint ty f) := by
  rw [reg_varint, flat_varint]
  exact sim_checkedErr (mix_le ty) (parse_fst ty) (fun g g' k h1 h2 => parse_congr ty h1 h2) h

theorem sim_bool {w} (h : RV H tot contig G w 5 s f) :
    Sim T (fun b c => b.2 = c.2 ∧ R H tot contig G b.1 c.1) (fun b => DS H tot contig G b.1)
      (fun _ => False) ((regOps H contig).bool s) (flatOps.bool f) := by
  rw [flat_bool]
  exact (sim_checkedErr (m := 10) (by omega) (fun g => (parseBool_spec g).1) (fun g g' k h1 h2 => parseBool_congr h1 h2) h).mono
    (fun b c _ _ h => ⟨h.1, h.2.toR⟩) (fun _ _ h => h) (fun _ _ h => h)

theorem dv_checkedErr (h : DV H tot contig G s) {α} {P : Mem → Option Nat × α} {m : Nat} (hm : m ≤ 10)
    (hP : ∀ g, (P g).1 = varintLen g m) :
    Out T (fun b => DS H tot contig G b.1 ∧ b.1.cur.beg ≤ b.1.cur.fin) (checkedErr H s m (P (H.view s.cur))) := by
  unfold checkedErr
  rcases h.checked (by omega) hP with e | ⟨k, v, e, hd, hle⟩
  · rw [e]; exact Out.err
  · rw [e]; exact Out.ok ⟨hd, hle⟩

theorem dv_varint (ty : VarTy) (h : DV H tot contig G s) :
    Out T (fun b => DS H tot contig G b.1 ∧ b.1.cur.beg ≤ b.1.cur.fin) ((regOps H contig).varint ty s) := by
  rw [reg_varint]
  exact dv_checkedErr h (mix_le ty) (parse_fst ty)

theorem dv_bool (h : DV H tot contig G s) : Out T (fun b => DS H tot contig G b.1 ∧ b.1.cur.beg ≤ b.1.cur.fin)
    ((regOps H contig).bool s) :=
  dv_checkedErr h (by omega) (fun g => (parseBool_spec g).1)

theorem dl_varint (ty : VarTy) (h : DL H tot contig 0 s) : (regOps H contig).varint ty s = .err .badMessage := by
  have := mix_le ty
  rw [reg_varint, checkedErr, h.checked (by omega) (parse_fst ty)]
  rfl

theorem dl_bool (h : DL H tot contig 0 s) : (regOps H contig).bool s = .err .badMessage := by
  show checkedErr H s 10 (parseBool (H.view s.cur)) = _
  rw [checkedErr, h.checked (by omega) (fun g => (parseBool_spec g).1)]
  rfl

theorem bytes_eq {H : Mems} {r : Region} {n : Nat} (h : H.good r n = true) : H.bytes r n = .ok ((List.range n).map (H.view r)) := by
  simp [Mems.bytes, h]

/-- Bytes before the end of the region are the input's. -/
theorem On.bytes {r L p n} (h : On H tot contig G s r L p n) {k : Nat} (hk : s.cur.beg + k ≤ r.fin) :
    H.bytes s.cur k = .ok ((tot.drop p).take k) ∧ p + k ≤ tot.length := by
  have hb := h.at_.beg
  have F := lay_facts h.at_.lay
  have hfs := F.fs
  have hlen := F.len
  have hp := h.pos
  refine ⟨?_, by omega⟩
  rw [bytes_eq (h.at_.good (by omega))]
  congr 1
  apply List.ext_getElem?
  intro i
  by_cases hi : i < k
  · rw [List.getElem?_map, List.getElem?_range hi, List.getElem?_take_of_lt hi, List.getElem?_drop]
    simp only [Option.map_some]
    rw [h.view (by omega), List.getElem?_eq_getElem (by omega)]
    rfl
  · rw [List.getElem?_eq_none (by simp; omega), List.getElem?_eq_none (by simp; omega)]

theorem sim_fixed {k : Nat} (hk : k = 4 ∨ k = 8) {w} (h : RV H tot contig G w 5 s f) :
    Sim T (fun b c => b.2 = c.2 ∧ R H tot contig G b.1 c.1) (fun b => DE H tot contig 8 b.1)
      (fun _ => False) ((regOps H contig).fixed k s) (flatOps.fixed k f) := by
  obtain ⟨r, L, p, n, h, rfl, b1, b2, b3⟩ := h
  have hlen := flatAt_length h.bound
  show Sim _ _ _ _ (H.bytes s.cur k >>= fun bs => .ok (s.consume k, leVal bs))
    (if k ≤ (flatAt tot p n).rest.length then Res.ok ((flatAt tot p n).consume k, leVal ((flatAt tot p n).rest.take k)) else .err .badMessage)
  rw [hlen]
  by_cases hn : k ≤ n
  · rw [if_pos hn, (h.bytes (k := k) (by rcases h.shape with f | f <;> omega)).1]
    refine Sim.ok ⟨?_, r, L, _, _, h.consume hn, flatAt_consume hn h.bound⟩
    simp only [flatAt, List.take_take, Nat.min_eq_left hn]
  · rw [if_neg hn, bytes_eq (h.at_.good (by omega))]
    refine Sim.dead (Out.ok ?_) (by simp)
    have hb := h.at_.beg
    have hl := h.left
    refine ⟨r, L, h.at_.consume (by omega), by rw [consume_left]; omega, fun e => ?_, fun e => ?_⟩
    · have := h.at_.last e
      have := h.at_.finLe
      simp only [Arch.consume, Region.consume]; omega
    · have := h.at_.slope
      simp only [Arch.consume, Region.consume]; omega

theorem dv_fixed {k : Nat} (hk : k = 4 ∨ k = 8) (h : DV H tot contig G s) :
    Out T (fun b => DE H tot contig 0 b.1) ((regOps H contig).fixed k s) := by
  obtain ⟨r, L, h, hl, h1, h2, h3, h4⟩ := h
  obtain ⟨c1, c2, c3, c4, c5, c6⟩ := h.crossed hl h2
  show Out _ _ (H.bytes s.cur k >>= fun bs => .ok (s.consume k, leVal bs))
  rw [bytes_eq (h.good (by omega))]
  have hb := h.beg
  refine Out.ok ⟨r, L, h.consume (by omega), by rw [consume_left]; omega, fun e => absurd e c1, fun e => ?_⟩
  simp only [Arch.consume, Region.consume]; omega

theorem sim_skip {k : Nat} {D} (h : R H tot contig G s f) :
    Sim T (fun b c => R H tot contig G b c) D (fun _ => False) ((regOps H contig).skip k s) (flatOps.skip k f) := by
  obtain ⟨r, L, p, n, h, rfl⟩ := h
  have hlen := flatAt_length h.bound
  show Sim _ _ _ _ (if s.avail contig < k then .err .badMessage else .ok (s.consume k))
    (if k ≤ (flatAt tot p n).rest.length then Res.ok ((flatAt tot p n).consume k) else .err .badMessage)
  rw [hlen, h.avail]
  by_cases hn : k ≤ n
  · rw [if_pos hn, if_neg (by omega)]
    exact Sim.ok ⟨r, L, _, _, h.consume hn, flatAt_consume hn h.bound⟩
  · rw [if_neg hn, if_pos (by omega)]
    exact Sim.err

theorem neg_skip {k : Nat} (h : s.avail contig < 0) : (regOps H contig).skip k s = .err .badMessage := by
  show (if s.avail contig < k then Res.err .badMessage else .ok (s.consume k)) = _
  rw [if_pos (by omega)]

theorem neg_raw {k : Nat} (h : s.avail contig < 0) : (regOps H contig).raw k s = .err .badMessage := by
  show regRaw H contig k s = _
  unfold regRaw
  rw [if_pos (by omega)]

/-- The scan of `skip_varint` for the first terminator. -/
theorem find_term (g : Mem) : ∀ w : Nat, (List.range w).find? (fun i => !(g i).msb) = (varintLen g w).map (· - 1) := by
  intro w
  cases h : varintLen g w with
  | none =>
    rw [Option.map_none, List.find?_eq_none]
    intro i hi
    have hi' : i < w := by simpa using hi
    simp only [Bool.not_eq_true, Bool.not_eq_false']
    -- no terminator up to `i`
    have key : ∀ j, j < w → (g j).msb = true := by
      intro j
      induction j using Nat.strongRecOn with
      | _ j ih =>
        intro hj
        cases hb : (g j).msb with
        | true => rfl
        | false =>
          have : varintLen g w = some (j + 1) :=
            varintLen_some.2 ⟨⟨by omega, fun i hi => ih i (by omega) (by omega), by simpa using hb⟩, by omega⟩
          rw [h] at this
          cases this
    exact key i hi'
  | some k =>
    obtain ⟨⟨h1, h2, h3⟩, h4⟩ := varintLen_some.1 h
    rw [Option.map_some, List.find?_eq_some_iff_getElem]
    refine ⟨by simpa using h3, k - 1, by simp; omega, by simp, fun j hj => ?_⟩
    simp [h2 j hj]

theorem varintLen_mono {g : Mem} {a b k : Nat} (h : varintLen g a = some k) (hb : k ≤ b) : varintLen g b = some k :=
  varintLen_some.2 ⟨(varintLen_some.1 h).1, hb⟩

/-- `skip_varint` from a place from which `w` bytes can be read. -/
theorem regSkip_eq {w : Nat} (hw : (w : Int) = min (s.cur.beg + 10) s.cur.fin - s.cur.beg) (hg : H.good s.cur w = true) :
    regSkipVarint H s = match varintLen (H.view s.cur) w with
      | some k => .ok (s.consume k)
      | none => .err .badMessage := by
  unfold regSkipVarint
  simp only
  rw [if_neg (by omega), show (min (s.cur.beg + 10) s.cur.fin - s.cur.beg).toNat = w by omega, find_term]
  cases e : varintLen (H.view s.cur) w with
  | none => simp [hg]
  | some k =>
    obtain ⟨⟨h1, h2, h3⟩, h4⟩ := varintLen_some.1 e
    simp only [Option.map_some]
    rw [show k - 1 + 1 = k by omega, if_pos]
    rw [good_iff] at hg ⊢
    exact fun i hi => hg i (by omega)

theorem sim_skipVarint {w} (h : RV H tot contig G w 5 s f) :
    Sim T (fun b c => R H tot contig G b c) (fun b => DS H tot contig G b) (fun _ => False)
      ((regOps H contig).skipVarint s) (flatOps.skipVarint f) := by
  obtain ⟨r, L, p, n, h, rfl, b1, b2, b3⟩ := h
  have hlen := flatAt_length h.bound
  have hfl := h.at_.finLe
  have hfs := (lay_facts h.at_.lay).fs
  show Sim _ _ _ _ (regSkipVarint H s) (match rdSkipVarint 10 (flatAt tot p n).rest with
    | some n' => Res.ok ((flatAt tot p n).consume n')
    | none => .err .badMessage)
  obtain ⟨w, hw⟩ : ∃ w : Nat, (w : Int) = min (s.cur.beg + 10) s.cur.fin - s.cur.beg :=
    ⟨(min (s.cur.beg + 10) s.cur.fin - s.cur.beg).toNat, by omega⟩
  rw [regSkip_eq hw (h.at_.good (by omega)), rdSkipVarint_eq, hlen]
  have agree : ∀ i, i < n → i < w → H.view s.cur i = memOf (flatAt tot p n).rest i := by
    intro i hi hm
    rw [flatAt_mem hi]
    exact h.view (by omega)
  have hwn : w = 10 ∨ w = n := by rcases h.shape with f | f <;> omega
  cases e : varintLen (H.view s.cur) w with
  | none =>
    have : ∀ k, varintLen (memOf (flatAt tot p n).rest) 10 = some k → ¬ k ≤ n := by
      intro k e2 hk
      have hk10 := (varintLen_some.1 e2).2
      have e3 := varintLen_mono e2 (b := w) (by omega)
      have := varintLen_congr (fun i hi => (agree i (by omega) (by omega)).symm) e3
      rw [e] at this
      cases this
    cases e2 : varintLen (memOf (flatAt tot p n).rest) 10 with
    | none => exact Sim.err
    | some k => simp only [if_neg (this k e2)]; exact Sim.err
  | some k =>
    have hkw := (varintLen_some.1 e).2
    simp only
    by_cases hk : k ≤ n
    · have e2 := varintLen_mono (varintLen_congr (fun i hi => agree i (by omega) (by omega)) e) (b := 10) (by omega)
      rw [e2]
      simp only [if_pos hk]
      exact Sim.ok ⟨r, L, _, _, h.consume hk, flatAt_consume hk h.bound⟩
    · refine Sim.dead (Out.ok (h.cross (by omega) (by omega)).2.2.2) ?_
      intro c
      cases e2 : varintLen (memOf (flatAt tot p n).rest) 10 with
      | none => simp
      | some k' =>
        have hk10 := (varintLen_some.1 e2).2
        by_cases hk' : k' ≤ n
        · have := varintLen_mono (varintLen_congr (fun i hi => (agree i (by omega) (by omega)).symm) e2) (b := w) (by omega)
          rw [e] at this
          cases this
          omega
        · simp [hk']

theorem dv_skipVarint (h : DV H tot contig G s) : Out T (fun b => DS H tot contig G b) ((regOps H contig).skipVarint s) := by
  have h' := h
  obtain ⟨r, L, h, hl, h1, h2, h3, h4⟩ := h
  show Out _ _ (regSkipVarint H s)
  have hfl := h.finLe
  have hfs := (lay_facts h.lay).fs
  obtain ⟨w, hw⟩ : ∃ w : Nat, (w : Int) = min (s.cur.beg + 10) s.cur.fin - s.cur.beg :=
    ⟨(min (s.cur.beg + 10) s.cur.fin - s.cur.beg).toNat, by omega⟩
  rw [regSkip_eq hw (h.good (by omega))]
  cases e : varintLen (H.view s.cur) w with
  | none => exact Out.err
  | some k =>
    have hkw := (varintLen_some.1 e).2
    exact Out.ok (h'.consume (by omega))

theorem sim_peek (h : RV H tot contig G w 11 s f) (h0 : 0 < f.rest.length) {D E} :
    Sim T (fun b c => b = c) D E ((regOps H contig).peek s) (flatOps.peek f) := by
  obtain ⟨r, L, p, n, h, rfl, b1, b2, b3⟩ := h
  rw [flatAt_length h.bound] at h0
  have hb : s.cur.beg + (0 : Nat) < r.fin := by rcases h.shape with f | f <;> omega
  have hv := h.view hb
  have hg := (good_iff.1 (h.at_.good (k := 1) (by omega))) 0 (by omega)
  show Sim _ _ _ _ (match H.cell s.cur.buf s.cur.beg with
    | some b => Res.ok b
    | none => .ub) (match (flatAt tot p n).rest with
    | b :: _ => Res.ok b
    | [] => .ub)
  unfold Mems.view at hv
  rw [show s.cur.beg + ((0 : Nat) : Int) = s.cur.beg by omega] at hv hg
  rcases hc : H.cell s.cur.buf s.cur.beg with _ | b
  · rw [hc] at hg
    cases hg
  · have hv' := hv
    rw [hc, Nat.add_zero] at hv'
    have hbd := h.bound
    have e : (flatAt tot p n).rest = b :: ((tot.drop (p + 1)).take (n - 1)) := by
      simp only [flatAt]
      obtain ⟨n, rfl⟩ : ∃ n', n = n' + 1 := ⟨n - 1, by omega⟩
      rw [List.drop_eq_getElem_cons (by omega), List.take_succ_cons]
      congr 1
      rw [List.getElem?_eq_getElem (by omega)] at hv'
      simpa using hv'.symm
    rw [e]
    exact Sim.ok rfl

end HppProto
