import Verif.Spec.MessageMemory

/-!
# The memory of nested messages: rows, footprints and local changes
-/

namespace HppProto.MsgMem

open MsgSpec (MTree blank blankField)
open MsgSpec.MField (kid)

variable {V : Type} [Inhabited V]

/-! ## Lists -/

theorem split_at {α} : ∀ {l : List α} {i : Nat} {x : α}, l[i]? = some x →
    ∃ A B, l = A ++ x :: B ∧ A.length = i
  | [], i, x, h => by simp at h
  | a :: l, 0, x, h => by
    simp at h; exact ⟨[], l, by simp [h], rfl⟩
  | a :: l, i + 1, x, h => by
    simp at h
    obtain ⟨A, B, h1, h2⟩ := split_at h
    exact ⟨a :: A, B, by simp [h1], by simp [h2]⟩

theorem flatMap_cong {α β} {f g : α → List β} : ∀ {l : List α}, (∀ a ∈ l, f a = g a) →
    l.flatMap f = l.flatMap g
  | [], _ => rfl
  | a :: l, h => by
    simp only [List.flatMap_cons]
    rw [h a (by simp), flatMap_cong fun x hx => h x (by simp [hx])]

theorem map_cong {α β} {f g : α → β} {l : List α} (h : ∀ a ∈ l, f a = g a) :
    l.map f = l.map g := List.map_congr_left h

theorem nodup_replace {A X B Y : List Nat} {N : Nat} (h : (A ++ X ++ B).Nodup)
    (hN : ∀ x ∈ A ++ X ++ B, x < N) (hY : Y.Nodup) (hs : ∀ y ∈ Y, y ∈ X ∨ N ≤ y) :
    (A ++ Y ++ B).Nodup := by
  simp only [List.nodup_append, List.mem_append] at *
  obtain ⟨⟨hA, hX, hAX⟩, hB, hXB⟩ := h
  refine ⟨⟨hA, hY, ?_⟩, hB, ?_⟩
  · rintro a ha y hy rfl
    rcases hs a hy with h | h
    · exact hAX a ha a h rfl
    · exact absurd (hN a (.inl (.inl ha))) (by omega)
  · rintro a (ha | ha) b hb rfl
    · exact hXB a (.inl ha) a hb rfl
    · rcases hs a ha with h | h
      · exact hXB a (.inr h) a hb rfl
      · exact absurd (hN a (.inr hb)) (by omega)

/-! ## Well-formed memory -/

def RowAll (P : MField → MSlot V → Prop) : List MField → MRow V → Prop
  | [], [] => True
  | f :: ts, s :: R => P f s ∧ RowAll P ts R
  | _, _ => False

def see : Nat → MMem V → MSlot V → MTree V
  | 0, _, _ => .kids []
  | _ + 1, _, .val v => .val v
  | d + 1, m, .kids p _ n => .kids (((m[p]?.getD []).take n).map fun R => R.map (see d m))

def foot : Nat → MMem V → MSlot V → List Nat
  | 0, _, _ => []
  | _ + 1, _, .val _ => []
  | d + 1, m, .kids p c n =>
    if c = 0 then [] else p :: ((m[p]?.getD []).take n).flatMap fun R => R.flatMap (foot d m)

def wf (T : MTypes) : Nat → MMem V → MField → MSlot V → Prop
  | 0, _, _, _ => False
  | _ + 1, _, f, .val _ => f = .val
  | d + 1, m, f, .kids p c n => ∃ t, kid f = some t ∧ (f = .one t → n ≤ 1) ∧ n ≤ c ∧
    (c ≠ 0 → ∃ blk, m[p]? = some blk ∧ blk.length = c ∧
      ∀ R ∈ blk.take n, RowAll (wf T d m) (T t) R)

def seeRow (d : Nat) (m : MMem V) (R : MRow V) : List (MTree V) := R.map (see d m)
def footRow (d : Nat) (m : MMem V) (R : MRow V) : List Nat := R.flatMap (foot d m)

theorem rowAll_imp {P Q : MField → MSlot V → Prop} : ∀ {ts : List MField} {R : MRow V},
    (∀ f, ∀ s ∈ R, P f s → Q f s) → RowAll P ts R → RowAll Q ts R
  | [], [], _, _ => trivial
  | [], _ :: _, _, h => h.elim
  | _ :: _, [], _, h => h.elim
  | f :: ts, s :: R, h, hp =>
    ⟨h f s (by simp) hp.1, rowAll_imp (fun f s hs => h f s (by simp [hs])) hp.2⟩

theorem rowAll_mem {P : MField → MSlot V → Prop} : ∀ {ts : List MField} {R : MRow V},
    RowAll P ts R → ∀ s ∈ R, ∃ f, P f s
  | [], [], _, _, h => by simp at h
  | [], _ :: _, h, _, _ => h.elim
  | _ :: _, [], h, _, _ => h.elim
  | f :: ts, s :: R, hp, x, hx => by
    rcases List.mem_cons.mp hx with rfl | hx
    · exact ⟨f, hp.1⟩
    · exact rowAll_mem hp.2 x hx

theorem rowAll_length {P : MField → MSlot V → Prop} : ∀ {ts : List MField} {R : MRow V},
    RowAll P ts R → R.length = ts.length
  | [], [], _ => rfl
  | [], _ :: _, h => h.elim
  | _ :: _, [], h => h.elim
  | f :: ts, s :: R, hp => by simp [rowAll_length hp.2]

theorem rowAll_append {P : MField → MSlot V → Prop} {f s TB B} :
    ∀ {TA : List MField} {A : MRow V}, RowAll P TA A → P f s → RowAll P TB B →
    RowAll P (TA ++ f :: TB) (A ++ s :: B)
  | [], [], _, h, h' => ⟨h, h'⟩
  | [], _ :: _, h, _, _ => h.elim
  | _ :: _, [], h, _, _ => h.elim
  | _ :: _, _ :: _, hp, h, h' => ⟨hp.1, rowAll_append hp.2 h h'⟩

theorem rowAll_split {P : MField → MSlot V → Prop} : ∀ {ts : List MField} {R : MRow V} {k : Nat}
    {f : MField} {s : MSlot V}, RowAll P ts R → ts[k]? = some f → R[k]? = some s →
    ∃ TA A TB B, ts = TA ++ f :: TB ∧ R = A ++ s :: B ∧ A.length = k ∧ RowAll P TA A ∧ P f s ∧
      RowAll P TB B
  | [], [], k, _, _, _, h, _ => by simp at h
  | [], _ :: _, _, _, _, h, _, _ => h.elim
  | _ :: _, [], _, _, _, h, _, _ => h.elim
  | g :: ts, x :: R, 0, f, s, hp, h1, h2 => by
    simp at h1 h2; subst h1; subst h2
    exact ⟨[], [], ts, R, rfl, rfl, rfl, trivial, hp.1, hp.2⟩
  | g :: ts, x :: R, k + 1, f, s, hp, h1, h2 => by
    simp at h1 h2
    obtain ⟨TA, A, TB, B, e1, e2, e3, h3, h4, h5⟩ := rowAll_split hp.2 h1 h2
    exact ⟨g :: TA, x :: A, TB, B, by simp [e1], by simp [e2], by simp [e3], ⟨hp.1, h3⟩, h4, h5⟩

theorem rowAll_get {P : MField → MSlot V → Prop} {ts : List MField} {R : MRow V} {k : Nat}
    {f : MField} (h : RowAll P ts R) (hk : ts[k]? = some f) : ∃ s, R[k]? = some s ∧ P f s := by
  have hl := rowAll_length h
  have : k < ts.length := (List.getElem?_eq_some_iff.mp hk).1
  have hk' : R[k]? = some (R[k]'(by omega)) := by simp
  obtain ⟨_, _, _, _, _, _, _, _, h4, _⟩ := rowAll_split h hk hk'
  exact ⟨_, hk', h4⟩

/-! ## More fuel -/

theorem wf_mono1 (T : MTypes) : ∀ (d : Nat) (m : MMem V) (f : MField) (s : MSlot V), wf T d m f s →
    wf T (d + 1) m f s ∧ see (d + 1) m s = see d m s ∧ foot (d + 1) m s = foot d m s
  | 0, _, _, _, h => h.elim
  | d + 1, m, f, .val v, h => ⟨h, rfl, rfl⟩
  | d + 1, m, f, .kids p c n, h => by
    obtain ⟨t, h1, h2, h3, h4⟩ := h
    by_cases hc : c = 0
    · subst hc
      obtain rfl : n = 0 := by omega
      exact ⟨⟨t, h1, h2, h3, fun h => absurd rfl h⟩, by simp [see], by simp [foot]⟩
    · obtain ⟨blk, e1, e2, e3⟩ := h4 hc
      have ih : ∀ R ∈ blk.take n, ∀ s ∈ R, see (d + 1) m s = see d m s ∧
          foot (d + 1) m s = foot d m s := fun R hR s hs => by
        obtain ⟨g, hg⟩ := rowAll_mem (e3 R hR) s hs
        exact (wf_mono1 T d m g s hg).2
      refine ⟨⟨t, h1, h2, h3, fun _ => ⟨blk, e1, e2, fun R hR =>
        rowAll_imp (fun f s _ h => (wf_mono1 T d m f s h).1) (e3 R hR)⟩⟩, ?_, ?_⟩
      · rw [see, see]
        simp only [e1, Option.getD_some, MTree.kids.injEq]
        exact map_cong fun R hR => map_cong fun s hs => (ih R hR s hs).1
      · rw [foot, foot]
        simp only [e1, Option.getD_some, hc, if_false, List.cons.injEq, true_and]
        exact flatMap_cong fun R hR => flatMap_cong fun s hs => (ih R hR s hs).2

theorem wf_mono {T : MTypes} {d e : Nat} {m : MMem V} {f : MField} {s : MSlot V} (h : wf T d m f s)
    (he : d ≤ e) : wf T e m f s ∧ see e m s = see d m s ∧ foot e m s = foot d m s := by
  induction he with
  | refl => exact ⟨h, rfl, rfl⟩
  | step _ ih =>
    have := wf_mono1 T _ m f s ih.1
    exact ⟨this.1, this.2.1.trans ih.2.1, this.2.2.trans ih.2.2⟩

theorem row_mono {T : MTypes} {d e : Nat} {m : MMem V} {ts : List MField} {R : MRow V}
    (h : RowAll (wf T d m) ts R) (he : d ≤ e) :
    RowAll (wf T e m) ts R ∧ seeRow e m R = seeRow d m R ∧ footRow e m R = footRow d m R := by
  refine ⟨rowAll_imp (fun f s _ h => (wf_mono h he).1) h, map_cong fun s hs => ?_,
    flatMap_cong fun s hs => ?_⟩ <;> obtain ⟨g, hg⟩ := rowAll_mem h s hs
  · exact (wf_mono hg he).2.1
  · exact (wf_mono hg he).2.2

/-! ## Unrelated changes -/

theorem wf_frame (T : MTypes) (m m' : MMem V) : ∀ (d : Nat) (f : MField) (s : MSlot V),
    wf T d m f s → (∀ p ∈ foot d m s, m'[p]? = m[p]?) →
    wf T d m' f s ∧ see d m' s = see d m s ∧ foot d m' s = foot d m s
  | 0, _, _, h, _ => h.elim
  | d + 1, f, .val v, h, _ => ⟨h, rfl, rfl⟩
  | d + 1, f, .kids p c n, h, hf => by
    obtain ⟨t, h1, h2, h3, h4⟩ := h
    by_cases hc : c = 0
    · subst hc
      obtain rfl : n = 0 := by omega
      exact ⟨⟨t, h1, h2, h3, fun h => absurd rfl h⟩, by simp [see], by simp [foot]⟩
    · obtain ⟨blk, e1, e2, e3⟩ := h4 hc
      have hp : m'[p]? = some blk := by
        rw [hf p (by simp [foot, hc]), e1]
      have hfr : ∀ R ∈ blk.take n, ∀ s ∈ R, ∀ x ∈ foot d m s, m'[x]? = m[x]? := by
        intro R hR s hs x hx
        refine hf x ?_
        simp only [foot, hc, if_false, e1, Option.getD_some, List.mem_cons, List.mem_flatMap]
        exact .inr ⟨R, hR, s, hs, hx⟩
      have ih : ∀ R ∈ blk.take n, ∀ s ∈ R, see d m' s = see d m s ∧
          foot d m' s = foot d m s := fun R hR s hs => by
        obtain ⟨g, hg⟩ := rowAll_mem (e3 R hR) s hs
        exact (wf_frame T m m' d g s hg (hfr R hR s hs)).2
      refine ⟨⟨t, h1, h2, h3, fun _ => ⟨blk, hp, e2, fun R hR =>
        rowAll_imp (fun f s hs h => (wf_frame T m m' d f s h (hfr R hR s hs)).1) (e3 R hR)⟩⟩,
        ?_, ?_⟩
      · rw [see, see]
        simp only [e1, hp, Option.getD_some, MTree.kids.injEq]
        exact map_cong fun R hR => map_cong fun s hs => (ih R hR s hs).1
      · rw [foot, foot]
        simp only [e1, hp, Option.getD_some, hc, if_false, List.cons.injEq, true_and]
        exact flatMap_cong fun R hR => flatMap_cong fun s hs => (ih R hR s hs).2

theorem mem_footRow {d : Nat} {m : MMem V} {R : MRow V} {x : Nat} :
    x ∈ footRow d m R ↔ ∃ s ∈ R, x ∈ foot d m s := by simp [footRow]

theorem row_frame {T : MTypes} {m m' : MMem V} {d : Nat} {ts : List MField} {R : MRow V}
    (h : RowAll (wf T d m) ts R) (hf : ∀ p ∈ footRow d m R, m'[p]? = m[p]?) :
    RowAll (wf T d m') ts R ∧ seeRow d m' R = seeRow d m R ∧ footRow d m' R = footRow d m R := by
  have hf' : ∀ s ∈ R, ∀ p ∈ foot d m s, m'[p]? = m[p]? := fun s hs p hp =>
    hf p (mem_footRow.mpr ⟨s, hs, hp⟩)
  refine ⟨rowAll_imp (fun f s hs h => (wf_frame T m m' d f s h (hf' s hs)).1) h,
    map_cong fun s hs => ?_, flatMap_cong fun s hs => ?_⟩ <;> obtain ⟨g, hg⟩ := rowAll_mem h s hs
  · exact (wf_frame T m m' d g s hg (hf' s hs)).2.1
  · exact (wf_frame T m m' d g s hg (hf' s hs)).2.2

/-! ## Local changes -/

/-- From memory `m`, where a row had the footprint `F`, to `m'`, where the row is `R'`: only blocks of
the footprint, blocks in `X` and new blocks have changed, and the new footprint is made of the old
one and of new blocks. -/
structure VC (T : MTypes) (ts : List MField) (X : List Nat) (m : MMem V) (F : List Nat)
    (m' : MMem V) (d' : Nat) (R' : MRow V) (new : List (MTree V)) : Prop where
  grow : m.length ≤ m'.length
  frame : ∀ p < m.length, p ∉ F → p ∉ X → m'[p]? = m[p]?
  wf : RowAll (MsgMem.wf T d' m') ts R'
  nodup : (footRow d' m' R').Nodup
  lt : ∀ x ∈ footRow d' m' R', x < m'.length
  sub : ∀ x ∈ footRow d' m' R', x ∈ F ∨ m.length ≤ x
  see : seeRow d' m' R' = new

/-- A good row. -/
structure Good (T : MTypes) (ts : List MField) (m : MMem V) (d : Nat) (R : MRow V) : Prop where
  wf : RowAll (MsgMem.wf T d m) ts R
  nodup : (footRow d m R).Nodup
  lt : ∀ x ∈ footRow d m R, x < m.length

theorem VC.good {T : MTypes} {ts X F d'} {m m' : MMem V} {R' new}
    (h : VC T ts X m F m' d' R' new) : Good T ts m' d' R' := ⟨h.wf, h.nodup, h.lt⟩

theorem footRow_append {d : Nat} {m : MMem V} {A B : MRow V} {s : MSlot V} :
    footRow d m (A ++ s :: B) = footRow d m A ++ foot d m s ++ footRow d m B := by
  simp [footRow]

theorem footRow_one {d : Nat} {m : MMem V} {s : MSlot V} : footRow d m [s] = foot d m s := by
  simp [footRow]

/-- A change of one slot is a change of the row. -/
theorem row_vc {T : MTypes} {ts : List MField} {X : List Nat} {m m1 : MMem V} {d d' k : Nat}
    {R : MRow V} {s s' : MSlot V} {f : MField} {tr : MTree V} (g : Good T ts m d R)
    (hk : R[k]? = some s) (hf : ts[k]? = some f)
    (hX : ∀ x ∈ X, x ∉ footRow d m R)
    (h : VC T [f] X m (foot d m s) m1 d' [s'] [tr]) :
    VC T ts X m (footRow d m R) m1 (max d d') (R.set k s') ((seeRow d m R).set k tr) := by
  obtain ⟨TA, A, TB, B, rfl, rfl, rfl, hA, hs, hB⟩ := rowAll_split g.wf hf hk
  have hset : (A ++ s :: B).set A.length s' = A ++ s' :: B := by simp
  rw [hset]
  have gn := g.nodup
  have gl := g.lt
  rw [footRow_append] at gn gl
  have hfr : ∀ C : MRow V, (∀ x ∈ footRow d m C, x ∈ footRow d m A ∨ x ∈ footRow d m B) →
      ∀ p ∈ footRow d m C, m1[p]? = m[p]? := by
    intro C hC p hp
    have hpo := hC p hp
    have hin : p ∈ footRow d m (A ++ s :: B) := by
      rw [footRow_append]; simp only [List.mem_append]
      rcases hpo with h | h
      · exact .inl (.inl h)
      · exact .inr h
    refine h.frame p (g.lt p hin) ?_ fun hx => hX p hx hin
    simp only [List.nodup_append, List.mem_append] at gn
    rcases hpo with ha | hb
    · exact fun hps => gn.1.2.2 p ha p hps rfl
    · exact fun hps => gn.2.2 p (.inr hps) p hb rfl
  obtain ⟨wA, sA, fA⟩ := row_frame hA (hfr A fun x hx => .inl hx)
  obtain ⟨wB, sB, fB⟩ := row_frame hB (hfr B fun x hx => .inr hx)
  obtain ⟨wA', sA', fA'⟩ := row_mono wA (Nat.le_max_left d d')
  obtain ⟨wB', sB', fB'⟩ := row_mono wB (Nat.le_max_left d d')
  obtain ⟨ws', ss', fs'⟩ := row_mono h.wf (Nat.le_max_right d d')
  have hfoot : footRow (max d d') m1 (A ++ s' :: B) =
      footRow d m A ++ footRow d' m1 [s'] ++ footRow d m B := by
    rw [footRow_append, fA', fA, fB', fB, ← footRow_one, fs']
  refine ⟨h.grow, ?_, rowAll_append wA' ws'.1 wB', ?_, ?_, ?_, ?_⟩
  · intro p hp hpF hpX
    refine h.frame p hp (fun hps => hpF ?_) hpX
    rw [footRow_append]; simp [hps]
  · rw [hfoot]
    exact nodup_replace gn gl h.nodup h.sub
  · intro x hx
    rw [hfoot] at hx
    simp only [List.mem_append] at hx gl
    have := h.grow
    rcases hx with (hx | hx) | hx
    · have := gl x (.inl (.inl hx)); omega
    · exact h.lt x hx
    · have := gl x (.inr hx); omega
  · intro x hx
    rw [hfoot] at hx
    rw [footRow_append]
    simp only [List.mem_append] at hx ⊢
    rcases hx with (hx | hx) | hx
    · exact .inl (.inl (.inl hx))
    · rcases h.sub x hx with h | h
      · exact .inl (.inl (.inr h))
      · exact .inr h
    · exact .inl (.inr hx)
  · have hss : see (max d d') m1 s' = tr := by
      have := ss'.trans h.see
      simpa [seeRow] using this
    have e1 : A.map (see (max d d') m1) = A.map (see d m) := sA'.trans sA
    have e2 : B.map (see (max d d') m1) = B.map (see d m) := sB'.trans sB
    simp [seeRow, e1, e2, hss]

/-- A change of one message in a field is a change of the slot of the field. -/
theorem slot_vc {T : MTypes} {m m' : MMem V} {d d' i p c n u : Nat} {f : MField}
    {blk : List (MRow V)} {C C' : MRow V} {new : List (MTree V)}
    (hw : wf T (d + 1) m f (.kids p c n)) (hu : kid f = some u)
    (hn : (foot (d + 1) m (.kids p c n)).Nodup)
    (hl : ∀ x ∈ foot (d + 1) m (.kids p c n), x < m.length)
    (hb : m[p]? = some blk) (hi : i < n) (hC : blk[i]? = some C)
    (hb' : m'[p]? = some (blk.set i C'))
    (h : VC T (T u) [p] m (footRow d m C) m' d' C' new) :
    VC T [f] [] m (foot (d + 1) m (.kids p c n)) m' (max d d' + 1) [.kids p c n]
      [.kids (((blk.take n).map (seeRow d m)).set i new)] := by
  obtain ⟨t, h1, h2, h3, h4⟩ := hw
  obtain rfl : u = t := by rw [hu] at h1; exact Option.some.inj h1
  have hc : c ≠ 0 := by omega
  obtain ⟨blk', e1, e2, e3⟩ := h4 hc
  obtain rfl : blk = blk' := by rw [hb] at e1; exact Option.some.inj e1
  have hC' : (blk.take n)[i]? = some C := by rw [List.getElem?_take, if_pos hi, hC]
  obtain ⟨A, B, hAB, hA⟩ := split_at hC'
  have hset : (blk.set i C').take n = A ++ C' :: B := by
    rw [List.take_set, hAB, ← hA]; simp
  have hF : foot (d + 1) m (.kids p c n) =
      p :: (A.flatMap (footRow d m) ++ footRow d m C ++ B.flatMap (footRow d m)) := by
    rw [foot, if_neg hc, hb, Option.getD_some, hAB]
    show p :: (A ++ C :: B).flatMap (footRow d m) = _
    rw [List.flatMap_append, List.flatMap_cons, List.append_assoc]
  rw [hF] at hn hl
  rw [List.nodup_cons] at hn
  have gl : ∀ x ∈ A.flatMap (footRow d m) ++ footRow d m C ++ B.flatMap (footRow d m),
    x < m.length := fun x hx => hl x (List.mem_cons_of_mem _ hx)
  have hpl : p < m.length := hl p (by simp)
  have hfr : ∀ R ∈ A ++ B, ∀ x ∈ footRow d m R, m'[x]? = m[x]? := by
    intro R hR x hx
    have hin : x ∈ A.flatMap (footRow d m) ∨ x ∈ B.flatMap (footRow d m) := by
      rcases List.mem_append.mp hR with h | h
      · exact .inl (List.mem_flatMap.mpr ⟨R, h, hx⟩)
      · exact .inr (List.mem_flatMap.mpr ⟨R, h, hx⟩)
    have hin' : x ∈ A.flatMap (footRow d m) ++ footRow d m C ++ B.flatMap (footRow d m) := by
      simp only [List.mem_append]; rcases hin with h | h
      · exact .inl (.inl h)
      · exact .inr h
    refine h.frame x (gl x hin') ?_ ?_
    · have hn2 := hn.2
      simp only [List.nodup_append, List.mem_append] at hn2
      rcases hin with ha | hb
      · exact fun hps => hn2.1.2.2 x ha x hps rfl
      · exact fun hps => hn2.2.2 x (.inr hps) x hb rfl
    · intro hxp
      rw [List.mem_singleton] at hxp; subst hxp
      exact hn.1 hin'
  have hrow : ∀ R ∈ A ++ B, RowAll (MsgMem.wf T (max d d') m') (T u) R ∧
      seeRow (max d d') m' R = seeRow d m R ∧ footRow (max d d') m' R = footRow d m R := by
    intro R hR
    have hmem : R ∈ blk.take n := by
      rw [hAB]; rcases List.mem_append.mp hR with h | h <;> simp [h]
    obtain ⟨w1, w2, w3⟩ := row_frame (e3 R hmem) (hfr R hR)
    obtain ⟨v1, v2, v3⟩ := row_mono w1 (Nat.le_max_left d d')
    exact ⟨v1, v2.trans w2, v3.trans w3⟩
  obtain ⟨wC, sC, fC⟩ := row_mono h.wf (Nat.le_max_right d d')
  have hF' : footRow (max d d' + 1) m' [.kids p c n] =
      p :: (A.flatMap (footRow d m) ++ footRow d' m' C' ++ B.flatMap (footRow d m)) := by
    rw [footRow_one, foot, if_neg hc, hb', Option.getD_some, hset]
    have ea : A.flatMap (footRow (max d d') m') = A.flatMap (footRow d m) :=
      flatMap_cong fun R hR => (hrow R (by simp [hR])).2.2
    have eb : B.flatMap (footRow (max d d') m') = B.flatMap (footRow d m) :=
      flatMap_cong fun R hR => (hrow R (by simp [hR])).2.2
    have : (A ++ C' :: B).flatMap (footRow (max d d') m') =
      A.flatMap (footRow d m) ++ footRow d' m' C' ++ B.flatMap (footRow d m) := by
      rw [List.flatMap_append, List.flatMap_cons, ea, eb, fC, List.append_assoc]
    exact congrArg (p :: ·) this
  refine ⟨h.grow, ?_, ⟨⟨u, h1, h2, h3, fun _ => ⟨blk.set i C', hb', by simp [e2], ?_⟩⟩, trivial⟩,
    ?_, ?_, ?_, ?_⟩
  · intro x hx hxF _
    rw [hF] at hxF
    simp only [List.mem_cons, List.mem_append, not_or] at hxF
    exact h.frame x hx hxF.2.1.2 (by simp [hxF.1])
  · intro R hR
    rw [hset] at hR
    rcases List.mem_append.mp hR with hR | hR
    · exact (hrow R (by simp [hR])).1
    · rcases List.mem_cons.mp hR with rfl | hR
      · exact wC
      · exact (hrow R (by simp [hR])).1
  · rw [hF', List.nodup_cons]
    refine ⟨?_, nodup_replace hn.2 gl h.nodup h.sub⟩
    intro hp
    have hn1 := hn.1
    simp only [List.mem_append] at hp hn1
    rcases hp with (hp | hp) | hp
    · exact hn1 (.inl (.inl hp))
    · rcases h.sub p hp with hp | hp
      · exact hn1 (.inl (.inr hp))
      · omega
    · exact hn1 (.inr hp)
  · intro x hx
    rw [hF'] at hx
    have := h.grow
    rcases List.mem_cons.mp hx with rfl | hx
    · omega
    · simp only [List.mem_append] at hx gl
      rcases hx with (hx | hx) | hx
      · have := gl x (.inl (.inl hx)); omega
      · exact h.lt x hx
      · have := gl x (.inr hx); omega
  · intro x hx
    rw [hF'] at hx
    rw [hF]
    simp only [List.mem_cons, List.mem_append] at hx ⊢
    rcases hx with rfl | (hx | hx) | hx
    · exact .inl (.inl rfl)
    · exact .inl (.inr (.inl (.inl hx)))
    · rcases h.sub x hx with h | h
      · exact .inl (.inr (.inl (.inr h)))
      · exact .inr h
    · exact .inl (.inr (.inr hx))
  · have ea : A.map (seeRow (max d d') m') = A.map (seeRow d m) :=
      map_cong fun R hR => (hrow R (by simp [hR])).2.1
    have eb : B.map (seeRow (max d d') m') = B.map (seeRow d m) :=
      map_cong fun R hR => (hrow R (by simp [hR])).2.1
    have : (A ++ C' :: B).map (seeRow (max d d') m') = ((blk.take n).map (seeRow d m)).set i new := by
      rw [hAB, List.map_append, List.map_cons, List.map_append, List.map_cons, ea, eb, sC, h.see, ← hA]
      simp
    show [MTree.kids (((m'[p]?.getD []).take n).map (seeRow (max d d') m'))] = _
    rw [hb', Option.getD_some, hset, this]

end HppProto.MsgMem
