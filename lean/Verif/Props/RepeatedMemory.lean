import Verif.Proofs.RepeatedMemory
/-!
# Claims C120-C122: repeated fields of dynamic messages are lists

Specification: a field is a list of elements that it shares with no other field.
-/
namespace HppProto.Props
open HppProto

/-- Effect of an operation on lists; `none` if it may not be used: an index is out of range, or numbers are copied to themselves. -/
def repSpec {V : Type} (K : RepKind V) (s : Nat → List (Option V)) (op : RepOp V) : Option (Nat → List (Option V)) :=
  let put (i : Nat) (l : List (Option V)) : Option (Nat → List (Option V)) := some fun k => if k = i then l else s k
  match op with
  | .reserve i _ => put i (s i)
  | .resize i n => put i ((s i).take n ++ List.replicate (n - (s i).length) K.fresh)
  | .write i k v => if k < (s i).length then put i ((s i).set k (some v)) else none
  | .push i v => put i (s i ++ [some v])
  | .pushOwn i k => if h : k < (s i).length then put i (s i ++ [(s i)[k]]) else none
  | .set i vs => put i (vs.map some)
  | .setOwn i a n =>
    if a + n ≤ (s i).length ∧ ¬ (K.copyUb = true ∧ a = 0 ∧ n ≠ 0) then put i (((s i).drop a).take n) else none
  | .clear i => put i []
  | .reset i => put i []
  | .adopt i vs => put i (vs.map some)
  | .clone i j => if K.copyUb = true ∧ i = j ∧ s j ≠ [] then none else put i (s j)
  | .alias i j => put i (s j)

/-- A history of lists. -/
def repSpecRun {V : Type} (K : RepKind V) : (Nat → List (Option V)) → List (RepOp V) → Option (Nat → List (Option V))
  | s, [] => some s
  | s, op :: ops => (repSpec K s op).bind fun t => repSpecRun K t ops

/-- The operation is no `alias_from`. -/
def RepOp.noAlias {V : Type} : RepOp V → Prop
  | .alias _ _ => False
  | _ => True

/-- The field an operation is called on. -/
def RepOp.target {V : Type} : RepOp V → Nat
  | .reserve i _ | .resize i _ | .write i _ _ | .push i _ | .pushOwn i _ | .set i _ | .setOwn i _ _ | .clear i | .reset i | .adopt i _
  | .clone i _ | .alias i _ => i

open RepSt

/-- Fields after an operation on field `i` that is `Eff`. -/
theorem eff_reads {V : Type} {s t : RepSt V} (g : Good s) (a : Apart s) {i : Nat} {l : List (Option V)} (e : Eff s t i l) :
    Good t ∧ Apart t ∧ t.read = fun k => if k = i then l else s.read k := by
  refine ⟨e.good, e.apart g a, funext fun k => ?_⟩
  by_cases hk : k = i
  · simp only [hk, if_true]; exact e.read
  · simp only [hk, if_false]
    refine e.other g hk ?_
    cases hb : (s.fields k).block with
    | none => exact .inl rfl
    | some b => exact .inr fun h => hk (a k i b hb h.symm)

/-- What an operation does to its field, in memory that may be shared; and that it is what the specification says, if it is not. -/
theorem step_eff {V : Type} {K : RepKind V} {s t : RepSt V} (g : Good s) {op : RepOp V} (na : RepOp.noAlias op)
    (h : s.step K op = some t) : ∃ l, Eff s t (RepOp.target op) l ∧
      (Apart s → repSpec K s.read op = some fun k => if k = RepOp.target op then l else s.read k) := by
  cases op with
  | reserve i n => obtain rfl := Option.some.inj h; exact ⟨_, (reserve_eff g i n).1, fun _ => rfl⟩
  | resize i n =>
    obtain rfl := Option.some.inj h
    refine ⟨_, (resize_eff g i n).1, fun _ => ?_⟩
    simp only [repSpec, read_length g, RepOp.target]
    rfl
  | write i k v =>
    simp only [step] at h
    split at h
    · rename_i hk
      obtain rfl := Option.some.inj h
      refine ⟨_, poke_eff g i k _ hk, fun _ => ?_⟩
      simp only [repSpec, read_length g, RepOp.target, hk, if_true]
      rfl
    · cases h
  | push i v => obtain rfl := Option.some.inj h; exact ⟨_, push_eff g i _, fun _ => rfl⟩
  | pushOwn i k =>
    simp only [step] at h
    split at h
    · rename_i hk
      obtain rfl := Option.some.inj h
      refine ⟨_, push_eff g i _, fun _ => ?_⟩
      have hl := read_length g i
      have := resize_old (K := K) g i ((s.fields i).size + 1) (by omega)
      have hx : ((s.resize K i ((s.fields i).size + 1)).cells (s.fields i).block).getD k none = (s.read i)[k]'(by omega) := by
        have h1 : (s.read i)[k]? = some ((s.read i)[k]'(by omega)) := List.getElem?_eq_getElem _
        have h2 := congrArg (fun l => l[k]?) this
        simp only [List.getElem?_take_of_lt hk, h1] at h2
        rw [List.getD_eq_getElem?_getD, h2]
        rfl
      simp only [repSpec, hl, hk, dif_pos, RepOp.target, hx]
    · cases h
  | set i vs =>
    obtain rfl := Option.some.inj h
    refine ⟨vs.map some, ?_, fun _ => rfl⟩
    have := assign_eff (K := K) g i (vs.map some)
    rw [List.length_map] at this
    exact this
  | setOwn i a n =>
    simp only [step] at h
    split at h
    · rename_i hk
      split at h
      · cases h
      · rename_i hu
        obtain rfl := Option.some.inj h
        obtain ⟨e1, h1, h2⟩ := resize_eff (K := K) g i n
        have c1 := g.size i
        have c2 := g.cap i
        have hs := resize_shrunk (K := K) i n g (by omega) (s.fields i).block
        rw [copyLoop_eq n _ i _ a 0 (.inr (Nat.zero_le _)) (by rw [hs]; omega), hs]
        have hx : (((s.cells (s.fields i).block).drop a).take n) = ((s.read i).drop a).take n := by
          unfold RepSt.read
          rw [List.drop_take, List.take_take, Nat.min_eq_left (by omega)]
        rw [hx]
        have hl := read_length g i
        have hn : (((s.read i).drop a).take n).length = n := by rw [List.length_take, List.length_drop]; omega
        refine ⟨((s.read i).drop a).take n, ?_, fun _ => ?_⟩
        · have e2 := assign_eff (K := K) g i (((s.read i).drop a).take n)
          rw [hn] at e2
          exact e2
        · simp only [repSpec, hl, hk, hu, RepOp.target, not_false_eq_true, and_self, if_true]
          rfl
    · cases h
  | clear i => obtain rfl := Option.some.inj h; exact ⟨_, size_eff g i 0 (Nat.zero_le _), fun _ => rfl⟩
  | reset i =>
    obtain rfl := Option.some.inj h
    refine ⟨[], ⟨⟨fun j => ?_, fun j => ?_, fun j b hb => ?_⟩, Nat.le_refl _, fun k hk => if_neg hk, fun _ _ _ => rfl, .inl ?_, ?_⟩, fun _ => rfl⟩
    · by_cases e : j = i
      · simp [put, e]
      · simp only [put, e, if_false]; exact g.size j
    · by_cases e : j = i
      · simp [put, e]
      · simp only [put, e, if_false]; exact g.cap j
    · by_cases e : j = i
      · simp [put, e] at hb
      · simp only [put, e, if_false] at hb; exact g.valid j b hb
    · simp [put, RepOp.target]
    · simp [RepSt.read, put, RepOp.target]
  | adopt i vs =>
    obtain rfl := Option.some.inj h
    have old : ∀ p : Option Nat, (∀ b, p = some b → b < s.blocks.length) →
        cells ⟨s.blocks ++ [vs.map some], fun k => if k = i then ⟨some s.blocks.length, vs.length, vs.length⟩ else s.fields k⟩ p =
          s.cells p := by
      intro p hp
      cases p with
      | none => rfl
      | some b =>
        have := hp b rfl
        simp only [cells, List.getD_eq_getElem?_getD]
        rw [List.getElem?_append_left this]
    have new : cells ⟨s.blocks ++ [vs.map some], fun k => if k = i then ⟨some s.blocks.length, vs.length, vs.length⟩ else s.fields k⟩
        (some s.blocks.length) = vs.map some := by
      simp [cells, List.getD_eq_getElem?_getD]
    refine ⟨vs.map some, ⟨⟨fun j => ?_, fun j => ?_, fun j b hb => ?_⟩, by simp, fun k hk => if_neg hk, fun p hp _ => old p hp,
      .inr (.inr ⟨s.blocks.length, ?_, Nat.le_refl _⟩), ?_⟩, fun _ => rfl⟩
    · by_cases e : j = i
      · simp [e]
      · simp only [e, if_false]; exact g.size j
    · by_cases e : j = i
      · simp only [e, if_true]; rw [new]; simp
      · simp only [e, if_false]
        rw [old _ fun b hb => g.valid j b hb]; exact g.cap j
    · rw [List.length_append]
      by_cases e : j = i
      · simp only [e, if_true] at hb
        obtain rfl := Option.some.inj hb
        simp
      · simp only [e, if_false] at hb
        have := g.valid j b hb
        omega
    · simp only [RepOp.target, if_true]
    · simp only [RepSt.read, RepOp.target, if_true]
      rw [new, List.take_of_length_le (by simp)]
  | clone i j =>
    simp only [step] at h
    have hl := read_length g j
    split at h
    · rename_i h0
      obtain rfl := Option.some.inj h
      refine ⟨_, size_eff g i 0 (Nat.zero_le _), fun _ => ?_⟩
      have : s.read j = [] := List.length_eq_zero_iff.1 (by omega)
      simp only [repSpec, this, RepOp.target, ne_eq, not_true, and_false, if_false, List.take_zero]
      rfl
    · rename_i h0
      split at h
      · cases h
      · rename_i hu
        obtain rfl := Option.some.inj h
        obtain ⟨e1, h1, h2⟩ := resize_eff (K := K) g i (s.fields j).size
        have g1 := g.size j
        have g2 := g.cap j
        have c : (s.fields j).size ≤ ((s.resize K i (s.fields j).size).cells (s.fields j).block).length := by
          by_cases hb : (s.fields j).block = (s.fields i).block
          · by_cases hc : (s.fields j).size ≤ (s.fields i).cap
            · have c1 := e1.good.cap i
              have c2 := e1.good.size i
              rw [h2 hc, ← hb] at c1
              omega
            · rw [resize_grown g i _ (by omega) _ fun b hb => g.valid j b hb]; omega
          · rw [e1.frame _ (fun b hb' => g.valid j b hb') hb]; omega
        rw [copyLoop_eq _ _ i _ 0 0 (.inr (Nat.le_refl _)) (by omega), List.drop_zero]
        have hn : (((s.resize K i (s.fields j).size).cells (s.fields j).block).take (s.fields j).size).length = (s.fields j).size := by
          rw [List.length_take]; omega
        refine ⟨((s.resize K i (s.fields j).size).cells (s.fields j).block).take (s.fields j).size, ?_, fun ap => ?_⟩
        · have e2 := assign_eff (K := K) g i (((s.resize K i (s.fields j).size).cells (s.fields j).block).take (s.fields j).size)
          rw [hn] at e2
          exact e2
        · have hx : ((s.resize K i (s.fields j).size).cells (s.fields j).block).take (s.fields j).size = s.read j := by
            by_cases hij : i = j
            · subst hij
              exact resize_old g i _ (Nat.le_refl _)
            · rw [e1.frame _ (fun b hb' => g.valid j b hb')]
              · rfl
              · intro hb
                cases hbj : (s.fields j).block with
                | none => rw [hbj] at g2; simp only [cells, List.length_nil] at g2; omega
                | some b => exact hij (ap i j b (hb ▸ hbj) hbj)
          have hu' : ¬ (K.copyUb = true ∧ i = j ∧ s.read j ≠ []) := by
            rintro ⟨hu1, rfl, -⟩
            exact hu ⟨hu1, h2 (g.size i)⟩
          simp only [repSpec, hu', if_false, RepOp.target, hx]
  | alias i j => exact na.elim

/-- An operation is undefined if and only if the specification says so. -/
theorem step_none {V : Type} {K : RepKind V} {s : RepSt V} (g : Good s) (ap : Apart s) {op : RepOp V} (na : RepOp.noAlias op)
    (h : s.step K op = none) : repSpec K s.read op = none := by
  cases op with
  | write i k v =>
    simp only [step] at h
    split at h
    · cases h
    · rename_i hk; simp only [repSpec, read_length g, hk, if_false]
  | pushOwn i k =>
    simp only [step] at h
    split at h
    · cases h
    · rename_i hk; simp only [repSpec, read_length g, hk, dif_neg, not_false_eq_true]
  | setOwn i a n =>
    simp only [step] at h
    simp only [repSpec, read_length g]
    split at h
    · split at h
      · rename_i hu
        rw [if_neg fun x => x.2 hu]
      · cases h
    · rename_i hk; rw [if_neg fun x => hk x.1]
  | clone i j =>
    simp only [step] at h
    have hl := read_length g j
    split at h
    · cases h
    · rename_i h0
      split at h
      · rename_i hu
        have hij : i = j := by
          by_cases hij : i = j
          · exact hij
          · exfalso
            obtain ⟨e1, -, -⟩ := resize_eff (K := K) g i (s.fields j).size
            have g1 := g.size j
            have g2 := g.cap j
            cases hbj : (s.fields j).block with
            | none => rw [hbj] at g2; simp only [cells, List.length_nil] at g2; omega
            | some b =>
              have hb := hu.2.trans hbj
              have hv := g.valid j b hbj
              rcases e1.ptr with q | q | ⟨c, q, hc⟩
              · rw [q] at hb; cases hb
              · exact hij (ap i j b (q ▸ hb) hbj)
              · rw [q] at hb; obtain rfl := Option.some.inj hb; omega
        have hne : s.read j ≠ [] := fun e => h0 (by rw [← hl, e]; rfl)
        simp only [repSpec, hu.1, hij, hne, ne_eq, not_false_eq_true, and_self, if_true]
      · cases h
  | alias i j => exact na.elim
  | _ => cases h

theorem init_good {V : Type} : Good (RepSt.init (V := V)) ∧ Apart (RepSt.init (V := V)) :=
  ⟨⟨fun _ => Nat.le_refl _, fun _ => Nat.le_refl _, fun _ _ h => by cases h⟩, fun _ _ _ h => by cases h⟩

/-- C120. In every history without `alias_from`, repeated fields are lists of their own: every operation has the effect the
specification gives it, and none is undefined unless the specification says so. In particular an element of a field may be appended to
it, and a part of it assigned to it. -/
theorem C120_lists {V : Type} (K : RepKind V) (ops : List (RepOp V)) (na : ∀ op ∈ ops, RepOp.noAlias op) :
    (RepSt.init.run K ops).map RepSt.read = repSpecRun K (fun _ => []) ops := by
  have main : ∀ (ops : List (RepOp V)) (s : RepSt V), Good s → Apart s → (∀ op ∈ ops, RepOp.noAlias op) →
      (s.run K ops).map RepSt.read = repSpecRun K s.read ops := by
    intro ops
    induction ops with
    | nil => exact fun _ _ _ _ => rfl
    | cons op ops ih =>
      intro s g ap na
      have n1 := na op List.mem_cons_self
      rw [RepSt.run, repSpecRun]
      cases h : s.step K op with
      | none => rw [step_none g ap n1 h]; rfl
      | some t =>
        obtain ⟨l, e, hs⟩ := step_eff g n1 h
        obtain ⟨g', a', r⟩ := eff_reads g ap e
        rw [hs ap, ← r]
        exact ih t g' a' fun o ho => na o (List.mem_cons_of_mem _ ho)
  have := main ops RepSt.init init_good.1 init_good.2 na
  rw [this]
  congr 1

/-- C120, example. Numbers: appending, appending an own element when there is no room, a part of the field to itself, copies. -/
example : let ops : List (RepOp Nat) := [.push 0 1, .push 0 2, .pushOwn 0 0, .write 0 1 7, .clone 1 0, .setOwn 0 1 2, .resize 1 4,
      .adopt 2 [5, 6], .push 2 8]
    (∀ op ∈ ops, RepOp.noAlias op) ∧
    (RepSt.init.run (numRep Nat) ops).map (fun s => (s.read 0, s.read 1, s.read 2)) =
      some ([some 7, some 1], [some 1, some 7, some 1, none], [some 5, some 6, some 8]) := by
  refine ⟨?_, by decide⟩
  intro op h
  simp only [List.mem_cons, List.not_mem_nil, or_false] at h
  rcases h with rfl | rfl | rfl | rfl | rfl | rfl | rfl | rfl | rfl <;> trivial

/-- Memory after any history, also with `alias_from`. -/
theorem reach_good {V : Type} {K : RepKind V} (ops : List (RepOp V)) : ∀ {s t : RepSt V}, Good s → s.run K ops = some t → Good t := by
  induction ops with
  | nil => intro s t g h; obtain rfl := Option.some.inj h; exact g
  | cons op ops ih =>
    intro s t g h
    rw [RepSt.run] at h
    cases hs : s.step K op with
    | none => rw [hs] at h; cases h
    | some u =>
      rw [hs] at h
      refine ih ?_ h
      by_cases na : RepOp.noAlias op
      · obtain ⟨l, e, -⟩ := step_eff g na hs
        exact e.good
      · cases op with
        | alias i j =>
          obtain rfl := Option.some.inj hs
          have g1 := g.size j
          have g2 := g.cap j
          constructor
          · intro k
            by_cases e : k = i
            · simp only [put, e, if_true]; split <;> first | exact g1 | exact Nat.le_refl _
            · simp only [put, e, if_false]; exact g.size k
          · intro k
            by_cases e : k = i
            · simp only [put, e, if_true]
              split
              · exact g2
              · exact Nat.le_trans g1 g2
            · simp only [put, e, if_false]; exact g.cap k
          · intro k b hb
            by_cases e : k = i
            · simp only [put, e, if_true] at hb
              split at hb
              · exact g.valid j b hb
              · exact g.valid j b hb
            · simp only [put, e, if_false] at hb; exact g.valid k b hb
        | _ => exact (na trivial).elim

/-- C121. In every history, an operation on a field changes another field only if both have the same content pointer; and right after
`alias_from` a field has the contents of the other. -/
theorem C121_unshared {V : Type} (K : RepKind V) (ops : List (RepOp V)) (s t : RepSt V) (hs : RepSt.init.run K ops = some s)
    (op : RepOp V) (ht : s.step K op = some t) :
    (∀ j, j ≠ RepOp.target op → (s.fields j).block = none ∨ (s.fields j).block ≠ (s.fields (RepOp.target op)).block →
      t.read j = s.read j) ∧
    ∀ i j, op = .alias i j → t.read i = s.read j := by
  have g := reach_good ops init_good.1 hs
  by_cases na : RepOp.noAlias op
  · obtain ⟨l, e, -⟩ := step_eff g na ht
    exact ⟨fun j hj h => e.other g hj h, fun i j e => by rw [e] at na; exact na.elim⟩
  · cases op with
    | alias i j =>
      obtain rfl := Option.some.inj ht
      refine ⟨fun k hk _ => ?_, fun i' j' e => ?_⟩
      · have hk' : k ≠ i := hk
        simp only [RepSt.read, put, hk', if_false]; rfl
      · cases e
        simp only [RepSt.read, put, if_true]
        split <;> rfl
    | _ => exact (na trivial).elim

/-- C121, refuted: fields of numbers where one is an alias of the other with room for more. Both append; the second append replaces the
element of the first. -/
theorem C121_append_lost :
    (RepSt.init.run (numRep Nat) [.reserve 0 3, .push 0 1, .alias 1 0, .push 0 2, .push 1 3]).map (fun s => (s.read 0, s.read 1)) =
      some ([some 1, some 3], [some 1, some 3]) := by decide

/-- C121: enums and strings do not share the room, so that both keep what they append. -/
theorem C121_append_kept :
    (RepSt.init.run (enumRep Nat) [.reserve 0 3, .push 0 1, .alias 1 0, .push 0 2, .push 1 3]).map (fun s => (s.read 0, s.read 1)) =
      some ([some 1, some 2], [some 1, some 3]) ∧
    (RepSt.init.run (strRep 0) [.reserve 0 3, .push 0 1, .alias 1 0, .push 0 2, .push 1 3]).map (fun s => (s.read 0, s.read 1)) =
      some ([some 1, some 2], [some 1, some 3]) := by decide

/-- C121, refuted: an alias is cleared and filled again; the elements of the other field are overwritten (0 is the empty string). A copy
of the other field, made the same way, finds nothing but empty strings, in both fields. -/
theorem C121_alias_overwrites :
    (RepSt.init.run (strRep 0) [.push 0 1, .push 0 2, .alias 1 0, .clear 1, .push 1 9]).map (fun s => (s.read 0, s.read 1)) =
      some ([some 9, some 2], [some 9]) ∧
    (RepSt.init.run (strRep 0) [.push 0 1, .push 0 2, .alias 1 0, .clear 1, .clone 1 0]).map (fun s => (s.read 0, s.read 1)) =
      some ([some 0, some 0], [some 0, some 0]) := by decide

theorem modify_lengths {α : Type} (f : List α → List α) (hf : ∀ c, (f c).length = c.length) (l : List (List α)) :
    ∀ b, (l.modify b f).map List.length = l.map List.length := by
  induction l with
  | nil => intro b; cases b <;> rfl
  | cons c l ih =>
    intro b
    cases b with
    | zero => simp [hf]
    | succ b => simp [ih b]

theorem poke_allocated {V : Type} (s : RepSt V) (i k : Nat) (x : Option V) : (s.poke i k x).allocated = s.allocated := by
  unfold allocated poke
  split
  · rfl
  · rw [modify_lengths _ fun c => List.length_set]

theorem pokes_allocated {V : Type} (l : List (Option V)) : ∀ (s : RepSt V) (i k : Nat), (s.pokes i k l).allocated = s.allocated := by
  induction l with
  | nil => exact fun _ _ _ => rfl
  | cons x l ih => intro s i k; rw [pokes, ih, poke_allocated]

/-- The state after `push_back`. -/
def pushed {V : Type} (K : RepKind V) (s : RepSt V) (i : Nat) (v : V) : RepSt V :=
  (s.resize K i ((s.fields i).size + 1)).poke i (s.fields i).size (some v)

theorem pushed_field {V : Type} (K : RepKind V) {s : RepSt V} (g : Good s) (i : Nat) (v : V) :
    Good (pushed K s i v) ∧ ((pushed K s i v).fields i).size = (s.fields i).size + 1 ∧
    ((s.fields i).size < (s.fields i).cap → (pushed K s i v).allocated = s.allocated ∧
      ((pushed K s i v).fields i).cap = (s.fields i).cap ∧ ((pushed K s i v).fields i).block = (s.fields i).block) ∧
    ((s.fields i).size = (s.fields i).cap → (pushed K s i v).allocated = s.allocated + ((s.fields i).size + 1) ∧
      ((pushed K s i v).fields i).cap = (s.fields i).size + 1) := by
  have e := push_eff (K := K) g i (some v)
  obtain ⟨e1, h1, h2⟩ := resize_eff (K := K) g i ((s.fields i).size + 1)
  have g1 := g.size i
  have g2 := g.cap i
  refine ⟨e.good, by rw [pushed, poke_fields]; exact h1, fun h => ?_, fun h => ?_⟩
  · have hc : ¬ (s.fields i).cap < (s.fields i).size + 1 := by omega
    refine ⟨?_, ?_, ?_⟩
    · rw [pushed, poke_allocated]
      simp only [resize, hc, if_false, fill_eq]
      exact pokes_allocated _ _ _ _
    · rw [pushed, poke_fields]
      simp only [resize, hc, if_false, fill_eq, put, if_true, pokes_fields]
    · rw [pushed, poke_fields]
      exact h2 (by omega)
  · have hc : (s.fields i).cap < (s.fields i).size + 1 := by omega
    refine ⟨?_, ?_⟩
    · rw [pushed, poke_allocated]
      simp only [resize, hc, if_true, fill_eq]
      refine (pokes_allocated _ _ _ _).trans ?_
      simp only [reserve, hc, if_true, allocated, List.map_append, List.sum_append, List.map_cons, List.map_nil, List.length_append,
        List.length_take, List.length_replicate, List.sum_cons, List.sum_nil]
      omega
    · rw [pushed, poke_fields]
      simp only [resize, hc, if_true, fill_eq, put, pokes_fields, reserve]

/-- C122. In every history, appending to a field no more elements than there is room for allocates nothing and does not move the elements
of the field, so that references to them stay valid. Missing: that appending needs memory proportional to the number of elements,
`C122_quadratic`. -/
theorem C122_room_partial {V : Type} (K : RepKind V) (ops : List (RepOp V)) (s : RepSt V) (hs : RepSt.init.run K ops = some s) (i : Nat)
    (vs : List V) (room : (s.fields i).size + vs.length ≤ (s.fields i).cap) :
    ∃ t, s.run K (vs.map (RepOp.push i)) = some t ∧ t.allocated = s.allocated ∧ (t.fields i).block = (s.fields i).block ∧
      t.read i = s.read i ++ vs.map some := by
  have g := reach_good ops init_good.1 hs
  clear hs
  induction vs generalizing s with
  | nil => exact ⟨s, rfl, rfl, rfl, by simp⟩
  | cons v vs ih =>
    simp only [List.length_cons] at room
    obtain ⟨h1, h2, h3, -⟩ := pushed_field K g i v
    obtain ⟨h4, h5, h6⟩ := h3 (by omega)
    obtain ⟨t, h7, h8, h9, h10⟩ := ih (pushed K s i v) (by omega) h1
    refine ⟨t, h7, h8.trans h4, h9.trans h6, h10.trans ?_⟩
    have e := (push_eff (K := K) g i (some v)).read
    change (pushed K s i v).read i = _ at e
    rw [e]
    simp

/-- C122: `reserve(n)` makes room for `n` elements. -/
theorem C122_reserve {V : Type} (K : RepKind V) (ops : List (RepOp V)) (s : RepSt V) (hs : RepSt.init.run K ops = some s) (i n : Nat) :
    ∃ t, s.step K (.reserve i n) = some t ∧ n ≤ (t.fields i).cap ∧ t.read = s.read := by
  have g := reach_good ops init_good.1 hs
  refine ⟨_, rfl, (reserve_eff g i n).2.1, funext fun j => ?_⟩
  by_cases h : j = i
  · subst h; exact (reserve_eff g j n).1.read
  · have old := (reserve_eff g i n).1
    unfold RepSt.read
    rw [old.same j h]
    congr 1
    unfold reserve
    simp only []
    split
    · cases hb : (s.fields j).block with
      | none => rfl
      | some b =>
        have := g.valid j b hb
        simp only [cells, List.getD_eq_getElem?_getD]
        rw [List.getElem?_append_left this]
    · rfl

/-- C122, example: a field with one element and room for three. -/
example : let ops : List (RepOp Nat) := [.push 0 1, .reserve 0 3]
    (RepSt.init.run (numRep Nat) ops).map (fun s => ((s.fields 0).size, (s.fields 0).cap)) = some (1, 3) := by decide

/-- C122, refuted: appending elements one by one to an empty field allocates a new block for each of them, 1 + 2 + ... + n elements for
`n`; the memory resource takes none of them back. -/
theorem C122_quadratic {V : Type} (K : RepKind V) (i : Nat) (vs : List V) :
    ∃ t, RepSt.init.run K (vs.map (RepOp.push i)) = some t ∧ t.read i = vs.map some ∧ 2 * t.allocated = vs.length * (vs.length + 1) := by
  have main : ∀ (vs : List V) (s : RepSt V), Good s → (s.fields i).size = (s.fields i).cap →
      2 * s.allocated = (s.fields i).size * ((s.fields i).size + 1) →
      ∃ t, s.run K (vs.map (RepOp.push i)) = some t ∧ t.read i = s.read i ++ vs.map some ∧
        2 * t.allocated = ((s.fields i).size + vs.length) * ((s.fields i).size + vs.length + 1) := by
    intro vs
    induction vs with
    | nil => exact fun s _ _ h => ⟨s, rfl, by simp, h⟩
    | cons v vs ih =>
      intro s g hc h
      obtain ⟨h1, h2, -, h3⟩ := pushed_field K g i v
      obtain ⟨h4, h5⟩ := h3 hc
      obtain ⟨t, h6, h7, h8⟩ := ih (pushed K s i v) h1 (by omega) (by
        rw [h4, h2, Nat.mul_add, h, ← Nat.add_mul, Nat.mul_comm, show (s.fields i).size + 2 = (s.fields i).size + 1 + 1 from rfl])
      refine ⟨t, h6, ?_, ?_⟩
      · have e := (push_eff (K := K) g i (some v)).read
        change (pushed K s i v).read i = _ at e
        rw [h7, e]
        simp
      · rw [h8, h2, List.length_cons, show (s.fields i).size + 1 + vs.length = (s.fields i).size + (vs.length + 1) by omega]
  obtain ⟨t, h1, h2, h3⟩ := main vs RepSt.init init_good.1 rfl rfl
  refine ⟨t, h1, h2, ?_⟩
  simpa [RepSt.init] using h3

end HppProto.Props
