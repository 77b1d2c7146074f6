import Verif.Proofs.RoundTrip
/-! Merging well-formed messages gives a well-formed message; associativity; merging an
empty message. -/
namespace HppProto
open Spec

section
variable {C : Cfg} {mv : Bool}

/-! ### Closure -/

theorem base_ok {P : Nat → Msg → Prop} {k : Kind} {sub : Nat} (hk : k = .msg sub ∨ k = .group sub) {es : List (Nat × Val)}
    (h : es = [] ∨ ∃ a v, es = [(a, v)] ∧ valOk C P k v) :
    mergeBase C sub es = (C.schema sub).default ∨ P sub (mergeBase C sub es) := by
  rcases h with rfl | ⟨a, v, rfl, hv⟩
  · exact .inl rfl
  · right
    rcases hk with rfl | rfl <;> obtain ⟨m, rfl, h⟩ := hv <;> exact h

theorem mergeVal_ok {P : Nat → Msg → Prop} (hdef : ∀ id m, P id m → mergeMsg C mv id (C.schema id).default m = m)
    (ih : ∀ id a b, P id a → P id b → P id (mergeMsg C mv id a b)) {k : Kind} {es : List (Nat × Val)} {v : Val}
    (h : es = [] ∨ ∃ a v, es = [(a, v)] ∧ valOk C P k v) (hv : valOk C P k v) : valOk C P k (mergeVal C mv k es v) := by
  cases k with
  | scalar sc => rw [mergeVal_scalar]; exact hv
  | msg sub =>
    obtain ⟨m, rfl, hm⟩ := hv
    rw [mergeVal_msg]
    refine ⟨_, rfl, ?_⟩
    rcases base_ok (.inl rfl) h with e | e
    · rw [e, hdef _ _ hm]; exact hm
    · exact ih _ _ _ e hm
  | group sub =>
    obtain ⟨m, rfl, hm⟩ := hv
    rw [mergeVal_group]
    refine ⟨_, rfl, ?_⟩
    rcases base_ok (.inr rfl) h with e | e
    · rw [e, hdef _ _ hm]; exact hm
    · exact ih _ _ _ e hm

theorem mem_insertAll {x : Nat × Val} : ∀ {es : List Val} {l : List (Nat × Val)}, x ∈ insertAll es l → x ∈ l ∨ (x.1 = 0 ∧ x.2 ∈ es)
  | [], _, h => .inl h
  | e :: es, l, h => by
    rcases mem_insertAll (es := es) (l := insertOrAssign e l) h with h | h
    · rcases mem_insertOrAssign h with h | rfl
      · exact .inl h
      · exact .inr ⟨rfl, by simp⟩
    · exact .inr ⟨h.1, by simp [h.2]⟩

theorem mergeMap_ok {P : Val → Prop} {dest src : List (Nat × Val)} (hd : (∀ e ∈ dest, e.1 = 0 ∧ P e.2) ∧ Asc dest)
    (hs : (∀ e ∈ src, e.1 = 0 ∧ P e.2) ∧ Asc src) : (∀ e ∈ mergeMap dest src, e.1 = 0 ∧ P e.2) ∧ Asc (mergeMap dest src) := by
  rw [mergeMap_eq hd.2 hs.2 (fun p hp => (hd.1 p hp).1) (fun p hp => (hs.1 p hp).1)]
  refine ⟨?_, asc_insertAll _ hd.2⟩
  intro e he
  rcases mem_insertAll he with h | ⟨h1, h2⟩
  · exact hd.1 e h
  · obtain ⟨q, hq, e2⟩ := List.mem_map.1 h2
    exact ⟨h1, e2 ▸ (hs.1 q hq).2⟩

theorem mergeSlot_ok {P : Nat → Msg → Prop} (hdef : ∀ id m, P id m → mergeMsg C mv id (C.schema id).default m = m)
    (ih : ∀ id a b, P id a → P id b → P id (mergeMsg C mv id a b)) {sd : SlotD} {a b : List (Nat × Val)}
    (ha : slotOk true C P sd a) (hb : slotOk true C P sd b) : slotOk true C P sd (mergeSlot C mv sd a b) := by
  cases sd with
  | oneof alts =>
    rcases hb with rfl | ⟨j, n, k, v, rfl, hj, hv⟩
    · rw [mergeSlot_nil]; exact ha
    · simp only [mergeSlot, hj]
      split
      · rename_i e
        refine .inr ⟨j, n, k, _, rfl, hj, mergeVal_ok hdef ih ?_ hv⟩
        rcases ha with rfl | ⟨j', n', k', v', rfl, hj', hv'⟩
        · exact .inl rfl
        · simp at e
          subst e
          rw [hj] at hj'
          cases hj'
          exact .inr ⟨_, _, rfl, hv'⟩
      · exact .inr ⟨j, n, k, _, rfl, hj, hv⟩
  | field n k card =>
    cases card with
    | implicit dflt =>
      obtain ⟨va, rfl, hva, hda⟩ := ha
      obtain ⟨vb, rfl, hvb, hdb⟩ := hb
      simp only [mergeSlot]
      split
      · exact ⟨va, rfl, hva, hda⟩
      · rename_i hne
        refine ⟨_, rfl, mergeVal_ok hdef ih (.inr ⟨_, _, rfl, hva⟩) hvb, ?_⟩
        cases k with
        | scalar sc => rw [mergeVal_scalar]; exact hdb
        | msg s => intro _ h; cases h
        | group s => intro _ h; cases h
    | always dflt =>
      obtain ⟨va, rfl, hva⟩ := ha
      obtain ⟨vb, rfl, hvb⟩ := hb
      simp only [mergeSlot]
      exact ⟨_, rfl, mergeVal_ok hdef ih (.inr ⟨_, _, rfl, hva⟩) hvb⟩
    | optional =>
      rcases hb with rfl | ⟨vb, rfl, hvb⟩
      · rw [mergeSlot_nil]; exact ha
      · simp only [mergeSlot]
        refine .inr ⟨_, rfl, mergeVal_ok hdef ih ?_ hvb⟩
        rcases ha with rfl | ⟨va, rfl, hva⟩
        · exact .inl rfl
        · exact .inr ⟨_, _, rfl, hva⟩
    | repeated p =>
      rw [mergeSlot_repeated]
      intro e he
      rcases List.mem_append.1 he with he | he
      · exact ha e he
      · obtain ⟨x, hx, rfl⟩ := List.mem_map.1 he
        refine ⟨rfl, ?_⟩
        rw [mergeElem_ok hdef (hb x hx).2]
        exact (hb x hx).2
    | map u =>
      cases u with
      | true => rw [mergeSlot_map]; exact mergeMap_ok ha hb
      | false =>
        rw [mergeSlot_seq]
        intro e he
        rcases List.mem_append.1 he with he | he
        · exact ha e he
        · exact hb e he

theorem mem_unkAppend {k b} {p : Nat × List Byte} : ∀ {l : List (Nat × List Byte)}, p ∈ unkAppend k b l →
    p ∈ l ∨ p = (k, b) ∨ ∃ x, (k, x) ∈ l ∧ p = (k, x ++ b)
  | [], h => by simp [unkAppend] at h; exact .inr (.inl h)
  | (k', b') :: l, h => by
    simp only [unkAppend] at h
    split at h
    · rename_i e; subst e
      rcases List.mem_cons.1 h with rfl | h
      · exact .inr (.inr ⟨b', by simp, rfl⟩)
      · exact .inl (by simp [h])
    · rcases List.mem_cons.1 h with rfl | h
      · exact .inl (by simp)
      · rcases mem_unkAppend h with h | h | ⟨x, h1, h2⟩
        · exact .inl (by simp [h])
        · exact .inr (.inl h)
        · exact .inr (.inr ⟨x, by simp [h1], h2⟩)

theorem keys_unkAppend (k b) : ∀ (l : List (Nat × List Byte)), (unkAppend k b l).map Prod.fst =
    if k ∈ l.map Prod.fst then l.map Prod.fst else l.map Prod.fst ++ [k]
  | [] => by simp [unkAppend]
  | (k', b') :: l => by
    simp only [unkAppend]
    by_cases h : k' = k
    · simp [h]
    · rw [if_neg h]
      simp only [List.map_cons, keys_unkAppend k b l, List.mem_cons]
      by_cases h2 : k ∈ l.map Prod.fst
      · simp [h2]
      · simp [h2, Ne.symm h]

theorem nodup_unkAppend {k b} {l : List (Nat × List Byte)} (h : (l.map Prod.fst).Nodup) : ((unkAppend k b l).map Prod.fst).Nodup := by
  rw [keys_unkAppend]
  split
  · exact h
  · rename_i hk
    rw [List.nodup_append]
    refine ⟨h, by simp, ?_⟩
    intro a ha b hb e
    rw [List.mem_singleton.1 hb] at e
    exact hk (e ▸ ha)

theorem unknownRecs_append {D d a b} (ha : unknownRecs D d a) (hb : unknownRecs D d b) : unknownRecs D d (a ++ b) := by
  refine ⟨by simp [ha.1], wfAll_append.2 ⟨ha.2.1, hb.2.1⟩, ?_⟩
  intro r hr
  rcases List.mem_append.1 hr with hr | hr
  · exact ha.2.2 r hr
  · exact hb.2.2 r hr

theorem mergeUnk_ok {D : MsgD} {d a b} (ha : unkOk D d a) (hb : unkOk D d b) : unkOk D d (mergeUnk D.unk a b) := by
  unfold unkOk at *
  unfold mergeUnk
  split at ha <;> rename_i e <;> simp only [e] at hb ⊢
  · exact ha
  · rcases hb with rfl | ⟨rb, rfl, hb⟩
    · exact ha
    · right
      rcases ha with rfl | ⟨ra, rfl, ha⟩
      · exact ⟨rb, rfl, hb⟩
      · exact ⟨ra ++ rb, by simp [unkAppend, rawAll_append], unknownRecs_append ha hb⟩
  · obtain ⟨na, ha⟩ := ha
    replace hb := hb.2
    induction b generalizing a with
    | nil => exact ⟨na, ha⟩
    | cons u b ih =>
      rw [List.foldl_cons]
      refine ih (nodup_unkAppend na) ?_ (fun x hx => hb x (by simp [hx]))
      intro p hp
      obtain ⟨rb, eb, hrb, kb⟩ := hb u (by simp)
      rcases mem_unkAppend hp with hp | rfl | ⟨x, hx, rfl⟩
      · exact ha p hp
      · exact ⟨rb, eb, hrb, kb⟩
      · obtain ⟨ra, ea, hra, ka⟩ := ha _ hx
        simp only at ea ka
        refine ⟨ra ++ rb, by rw [rawAll_append, ← ea, ← eb], unknownRecs_append hra hrb, ?_⟩
        intro r hr
        rcases List.mem_append.1 hr with hr | hr
        · exact ka r hr
        · exact kb r hr

theorem mergeSlots_ok {P : Nat → Msg → Prop} (hdef : ∀ id m, P id m → mergeMsg C mv id (C.schema id).default m = m)
    (ih : ∀ id a b, P id a → P id b → P id (mergeMsg C mv id a b)) : ∀ {sds : List SlotD} {as bs},
    as.length = sds.length → bs.length = sds.length → (∀ p ∈ sds.zip as, slotOk true C P p.1 p.2) → (∀ p ∈ sds.zip bs, slotOk true C P p.1 p.2) →
    ∀ p ∈ sds.zip (mergeSlots C mv sds as bs), slotOk true C P p.1 p.2
  | [], _, _, _, _, _, _, p, h => by simp at h
  | _ :: _, [], _, h, _, _, _, _, _ => by simp at h
  | _ :: _, _ :: _, [], _, h, _, _, _, _ => by simp at h
  | sd :: sds, a :: as, b :: bs, la, lb, ha, hb, p, h => by
    rw [mergeSlots_cons, List.zip_cons_cons, List.mem_cons] at h
    rcases h with rfl | h
    · exact mergeSlot_ok hdef ih (ha (sd, a) (by simp)) (hb (sd, b) (by simp))
    · exact mergeSlots_ok hdef ih (by simpa using la) (by simpa using lb) (fun p hp => ha p (by simp [hp])) (fun p hp => hb p (by simp [hp])) p h

theorem merge_ok (hS : schemaOk C) : ∀ d id a b, objOk C d id a → objOk C d id b → objOk C d id (mergeMsg C mv id a b)
  | 0, _, _, _, h, _ => h.elim
  | d + 1, id, a, b, ⟨a1, a2, a3⟩, ⟨b1, b2, b3⟩ => by
    rw [mergeMsg_eq]
    refine ⟨by simpa [mergeSlots_length] using a1, ?_, mergeUnk_ok a3 b3⟩
    exact mergeSlots_ok (merge_default hS d) (merge_ok hS d) a1 b1 a2 b2

/-! ### Associativity -/

theorem mergeVal_assoc {P : Nat → Msg → Prop} (hdef : ∀ id m, P id m → mergeMsg C mv id (C.schema id).default m = m)
    (hcl : ∀ id a b, P id a → P id b → P id (mergeMsg C mv id a b))
    (ih : ∀ id a b c, P id a → P id b → P id c → mergeMsg C mv id (mergeMsg C mv id a b) c = mergeMsg C mv id a (mergeMsg C mv id b c))
    {k : Kind} {es : List (Nat × Val)} {b c : Val} {x y : Nat} (h : es = [] ∨ ∃ a v, es = [(a, v)] ∧ valOk C P k v)
    (hb : valOk C P k b) (hc : valOk C P k c) :
    mergeVal C mv k [(x, mergeVal C mv k es b)] c = mergeVal C mv k es (mergeVal C mv k [(y, b)] c) := by
  have sub : ∀ s, (k = .msg s ∨ k = .group s) → ∀ mb mc, P s mb → P s mc →
      mergeMsg C mv s (mergeMsg C mv s (mergeBase C s es) mb) mc = mergeMsg C mv s (mergeBase C s es) (mergeMsg C mv s mb mc) := by
    intro s hk mb mc pb pc
    rcases base_ok hk h with e | e
    · rw [e, hdef _ _ pb, hdef _ _ (hcl _ _ _ pb pc)]
    · exact ih _ _ _ _ e pb pc
  cases k with
  | scalar sc => simp only [mergeVal_scalar]
  | msg s =>
    obtain ⟨mb, rfl, pb⟩ := hb
    obtain ⟨mc, rfl, pc⟩ := hc
    simp only [mergeVal_msg]
    exact congrArg Val.msg (sub s (.inl rfl) mb mc pb pc)
  | group s =>
    obtain ⟨mb, rfl, pb⟩ := hb
    obtain ⟨mc, rfl, pc⟩ := hc
    simp only [mergeVal_group]
    exact congrArg Val.msg (sub s (.inr rfl) mb mc pb pc)

theorem mergeMap_assoc {a b c : List (Nat × Val)} (ha : (∀ e ∈ a, e.1 = 0 ∧ True) ∧ Asc a) (hb : (∀ e ∈ b, e.1 = 0 ∧ True) ∧ Asc b)
    (hc : (∀ e ∈ c, e.1 = 0 ∧ True) ∧ Asc c) : mergeMap (mergeMap a b) c = mergeMap a (mergeMap b c) := by
  have hab := mergeMap_ok (P := fun _ => True) ha hb
  have hbc := mergeMap_ok (P := fun _ => True) hb hc
  have z : ∀ {l : List (Nat × Val)}, (∀ e ∈ l, e.1 = 0 ∧ True) → ∀ p ∈ l, p.1 = 0 := fun h p hp => (h p hp).1
  have hl := mergeMap_ok (P := fun _ => True) hab hc
  have hr := mergeMap_ok (P := fun _ => True) ha hbc
  apply asc_ext hl.2 hr.2 (z hl.1) (z hr.1)
  have lk : ∀ {x y : List (Nat × Val)}, ((∀ e ∈ x, e.1 = 0 ∧ True) ∧ Asc x) → ((∀ e ∈ y, e.1 = 0 ∧ True) ∧ Asc y) → ∀ k,
      look (mergeMap x y) k = (look y k).or (look x k) := by
    intro x y hx hy k
    rw [mergeMap_eq hx.2 hy.2 (z hx.1) (z hy.1), look_insertAll k _ hx.2, look_map_filter k hy.2]
  intro k
  rw [lk hab hc, lk ha hb, lk ha hbc, lk hb hc, Option.or_assoc]

theorem mergeSlot_assoc {P : Nat → Msg → Prop} (hdef : ∀ id m, P id m → mergeMsg C mv id (C.schema id).default m = m)
    (hcl : ∀ id a b, P id a → P id b → P id (mergeMsg C mv id a b))
    (ih : ∀ id a b c, P id a → P id b → P id c → mergeMsg C mv id (mergeMsg C mv id a b) c = mergeMsg C mv id a (mergeMsg C mv id b c))
    {sd : SlotD} (hone : ∀ alts, sd = .oneof alts → ∀ x ∈ alts, ∃ sc, x.2 = .scalar sc) {a b c : List (Nat × Val)}
    (ha : slotOk true C P sd a) (hb : slotOk true C P sd b) (hc : slotOk true C P sd c) :
    mergeSlot C mv sd (mergeSlot C mv sd a b) c = mergeSlot C mv sd a (mergeSlot C mv sd b c) := by
  cases sd with
  | oneof alts =>
    rcases hc with rfl | ⟨j, n, k, v, rfl, hj, hv⟩
    · simp only [mergeSlot_nil]
    · obtain ⟨sc, rfl⟩ : ∃ sc, k = .scalar sc := hone alts rfl (n, k) (List.mem_of_getElem? hj)
      have : ∀ x, mergeSlot C mv (.oneof alts) x [(j, v)] = [(j, v)] := by
        intro x; simp only [mergeSlot, hj, mergeVal_scalar]; split <;> rfl
      simp only [this]
  | field n k card =>
    cases card with
    | implicit dflt =>
      obtain ⟨va, rfl, hva, hda⟩ := ha
      obtain ⟨vb, rfl, hvb, hdb⟩ := hb
      obtain ⟨vc, rfl, hvc, hdc⟩ := hc
      by_cases dc : isDefault k dflt vc = true
      · simp only [mergeSlot, if_pos dc]
      · have dbc : ¬ isDefault k dflt (mergeVal C mv k [(0, vb)] vc) = true := by
          cases k with
          | scalar sc => rw [mergeVal_scalar]; exact dc
          | _ => intro h; cases h
        simp only [mergeSlot, if_neg dc, if_neg dbc]
        by_cases db : isDefault k dflt vb = true
        · rw [if_pos db]
          cases k with
          | scalar sc => simp only [mergeVal_scalar]
          | msg s => cases db
          | group s => cases db
        · rw [if_neg db, mergeVal_assoc hdef hcl ih (y := 0) (.inr ⟨_, _, rfl, hva⟩) hvb hvc]
    | always dflt =>
      obtain ⟨va, rfl, hva⟩ := ha
      obtain ⟨vb, rfl, hvb⟩ := hb
      obtain ⟨vc, rfl, hvc⟩ := hc
      simp only [mergeSlot]
      rw [mergeVal_assoc hdef hcl ih (y := 0) (.inr ⟨_, _, rfl, hva⟩) hvb hvc]
    | optional =>
      rcases hc with rfl | ⟨vc, rfl, hvc⟩
      · simp only [mergeSlot_nil]
      · have ha' : a = [] ∨ ∃ i v, a = [(i, v)] ∧ valOk C P k v := by
          rcases ha with rfl | ⟨va, rfl, hva⟩
          · exact .inl rfl
          · exact .inr ⟨_, _, rfl, hva⟩
        rcases hb with rfl | ⟨vb, rfl, hvb⟩
        · simp only [mergeSlot]
          rw [mergeVal_default hdef (d := []) (fun _ _ => rfl) hvc]
        · simp only [mergeSlot]
          rw [mergeVal_assoc hdef hcl ih (y := 0) ha' hvb hvc]
    | repeated p =>
      have el : ∀ es : List (Nat × Val), (∀ e ∈ es, e.1 = 0 ∧ valOk C P k e.2) → es.map (fun e => (0, mergeElem C mv k e.2)) = es := by
        intro es h
        conv => rhs; rw [← List.map_id es]
        apply List.map_congr_left
        rintro ⟨i, v⟩ he
        have := h _ he
        simp only at this
        rw [mergeElem_ok hdef this.2, this.1]; rfl
      simp only [mergeSlot_repeated]
      rw [el b hb, el c hc, el (b ++ c) (fun e he => (List.mem_append.1 he).elim (hb e) (hc e)), List.append_assoc]
    | map u =>
      cases u with
      | true =>
        simp only [mergeSlot_map]
        exact mergeMap_assoc ⟨fun e h => ⟨(ha.1 e h).1, trivial⟩, ha.2⟩ ⟨fun e h => ⟨(hb.1 e h).1, trivial⟩, hb.2⟩ ⟨fun e h => ⟨(hc.1 e h).1, trivial⟩, hc.2⟩
      | false => simp only [mergeSlot_seq, List.append_assoc]

theorem unkAppend_comm {k k2 : Nat} {x y : List Byte} (hne : k ≠ k2) : ∀ {l : List (Nat × List Byte)}, k ∈ l.map Prod.fst →
    unkAppend k x (unkAppend k2 y l) = unkAppend k2 y (unkAppend k x l)
  | [], h => by simp at h
  | (k', b) :: l, h => by
    by_cases e1 : k' = k
    · subst e1
      simp [unkAppend, hne]
    · have h' : k ∈ l.map Prod.fst := by
        rcases List.mem_cons.1 h with h | h
        · exact absurd h.symm e1
        · exact h
      by_cases e2 : k' = k2
      · subst e2
        simp [unkAppend, e1]
      · simp only [unkAppend, if_neg e1, if_neg e2, unkAppend_comm hne h']

theorem foldl_keys (src : List (Nat × List Byte)) : ∀ {dest : List (Nat × List Byte)} {k}, k ∈ dest.map Prod.fst →
    k ∈ (src.foldl (fun acc u => unkAppend u.1 u.2 acc) dest).map Prod.fst := by
  induction src with
  | nil => intro dest k h; exact h
  | cons u src ih =>
    intro dest k h
    rw [List.foldl_cons]
    apply ih
    rw [keys_unkAppend]
    split
    · exact h
    · exact List.mem_append_left _ h

theorem foldl_unk_after {k x} : ∀ (l : List (Nat × List Byte)) (a : List (Nat × List Byte)), k ∈ a.map Prod.fst → k ∉ l.map Prod.fst →
    l.foldl (fun acc u => unkAppend u.1 u.2 acc) (unkAppend k x a) = unkAppend k x (l.foldl (fun acc u => unkAppend u.1 u.2 acc) a)
  | [], _, _, _ => rfl
  | u :: l, a, h, hn => by
    simp only [List.map_cons, List.mem_cons, not_or] at hn
    rw [List.foldl_cons, List.foldl_cons, ← unkAppend_comm hn.1 h, foldl_unk_after l _ _ hn.2]
    rw [keys_unkAppend]
    split
    · exact h
    · exact List.mem_append_left _ h

theorem foldl_unk_append {k x} : ∀ (l : List (Nat × List Byte)) (a : List (Nat × List Byte)), (l.map Prod.fst).Nodup →
    (unkAppend k x l).foldl (fun acc u => unkAppend u.1 u.2 acc) a = unkAppend k x (l.foldl (fun acc u => unkAppend u.1 u.2 acc) a)
  | [], _, _ => rfl
  | (k', b) :: l, a, hn => by
    simp only [List.map_cons, List.nodup_cons] at hn
    simp only [unkAppend]
    by_cases e : k' = k
    · subst e
      rw [if_pos rfl, List.foldl_cons, List.foldl_cons]
      simp only
      rw [← unkAppend_twice, foldl_unk_after l _ _ hn.1]
      rw [keys_unkAppend]
      split
      · assumption
      · simp
    · rw [if_neg e, List.foldl_cons, List.foldl_cons, foldl_unk_append l _ hn.2]

theorem mergeUnk_assoc {D : MsgD} {d a b c} (hb : unkOk D d b) :
    mergeUnk D.unk (mergeUnk D.unk a b) c = mergeUnk D.unk a (mergeUnk D.unk b c) := by
  have hn : (b.map Prod.fst).Nodup := by
    unfold unkOk at hb
    split at hb
    · rw [hb]; simp
    · rcases hb with rfl | ⟨rs, rfl, -⟩ <;> simp
    · exact hb.1
  have key : ∀ (c b : List (Nat × List Byte)), (b.map Prod.fst).Nodup → c.foldl (fun acc u => unkAppend u.1 u.2 acc) (b.foldl (fun acc u => unkAppend u.1 u.2 acc) a)
      = (c.foldl (fun acc u => unkAppend u.1 u.2 acc) b).foldl (fun acc u => unkAppend u.1 u.2 acc) a := by
    intro c
    induction c with
    | nil => intro b _; rfl
    | cons u c ih =>
      intro b hn
      rw [List.foldl_cons, List.foldl_cons, ← ih _ (nodup_unkAppend hn), foldl_unk_append _ _ hn]
  cases hm : D.unk with
  | none => rfl
  | _ => exact key c b hn

theorem mergeSlots_assoc {P : Nat → Msg → Prop} (hdef : ∀ id m, P id m → mergeMsg C mv id (C.schema id).default m = m)
    (hcl : ∀ id a b, P id a → P id b → P id (mergeMsg C mv id a b))
    (ih : ∀ id a b c, P id a → P id b → P id c → mergeMsg C mv id (mergeMsg C mv id a b) c = mergeMsg C mv id a (mergeMsg C mv id b c)) :
    ∀ {sds : List SlotD} {as bs cs}, (∀ alts, SlotD.oneof alts ∈ sds → ∀ x ∈ alts, ∃ sc, x.2 = .scalar sc) →
    as.length = sds.length → bs.length = sds.length → cs.length = sds.length →
    (∀ p ∈ sds.zip as, slotOk true C P p.1 p.2) → (∀ p ∈ sds.zip bs, slotOk true C P p.1 p.2) → (∀ p ∈ sds.zip cs, slotOk true C P p.1 p.2) →
    mergeSlots C mv sds (mergeSlots C mv sds as bs) cs = mergeSlots C mv sds as (mergeSlots C mv sds bs cs)
  | [], [], [], [], _, _, _, _, _, _, _ => by simp only [mergeSlots_nil]
  | [], _ :: _, _, _, _, h, _, _, _, _, _ => by simp at h
  | [], _, _ :: _, _, _, _, h, _, _, _, _ => by simp at h
  | [], _, _, _ :: _, _, _, _, h, _, _, _ => by simp at h
  | _ :: _, [], _, _, _, h, _, _, _, _, _ => by simp at h
  | _ :: _, _, [], _, _, _, h, _, _, _, _ => by simp at h
  | _ :: _, _, _, [], _, _, _, h, _, _, _ => by simp at h
  | sd :: sds, a :: as, b :: bs, c :: cs, ho, la, lb, lc, ha, hb, hc => by
    simp only [mergeSlots_cons]
    rw [mergeSlot_assoc hdef hcl ih (fun alts e => ho alts (by simp only at e; simp [e])) (ha (sd, a) (by simp)) (hb (sd, b) (by simp)) (hc (sd, c) (by simp)),
      mergeSlots_assoc hdef hcl ih (fun alts h => ho alts (by simp [h])) (by simpa using la) (by simpa using lb) (by simpa using lc)
        (fun p hp => ha p (by simp [hp])) (fun p hp => hb p (by simp [hp])) (fun p hp => hc p (by simp [hp]))]

theorem merge_assoc (hS : schemaOk C) (hone : ∀ id alts, SlotD.oneof alts ∈ (C.schema id).slots → ∀ x ∈ alts, ∃ sc, x.2 = .scalar sc) :
    ∀ d id a b c, objOk C d id a → objOk C d id b → objOk C d id c →
      mergeMsg C mv id (mergeMsg C mv id a b) c = mergeMsg C mv id a (mergeMsg C mv id b c)
  | 0, _, _, _, _, h, _, _ => h.elim
  | d + 1, id, a, b, c, ⟨a1, a2, a3⟩, ⟨b1, b2, b3⟩, ⟨c1, c2, c3⟩ => by
    have e1 := mergeSlots_assoc (merge_default (mv := mv) hS d) (merge_ok hS d) (merge_assoc hS hone d) (hone id) a1 b1 c1 a2 b2 c2
    have e2 := mergeUnk_assoc (a := a.unk) (c := c.unk) b3
    rw [mergeMsg_eq, mergeMsg_eq, mergeMsg_eq, mergeMsg_eq]
    simp only [e1, e2]

/-! ### An empty source -/

theorem mergeSlots_empty : ∀ {sds : List SlotD} {as}, as.length = sds.length →
    (∀ sd ∈ sds, ∀ d, mergeSlot C mv sd d sd.initial = d) → mergeSlots C mv sds as (sds.map SlotD.initial) = as
  | [], [], _, _ => by simp only [List.map_nil, mergeSlots_nil]
  | [], _ :: _, h, _ => by simp at h
  | _ :: _, [], h, _ => by simp at h
  | sd :: sds, a :: as, hl, h => by
    rw [List.map_cons, mergeSlots_cons, h sd (by simp), mergeSlots_empty (by simpa using hl) (fun x hx => h x (by simp [hx]))]

/-- Plain members compare equal to their own default, and none is always written. -/
def plainOmits (D : MsgD) : Prop := ∀ n k card, SlotD.field n k card ∈ D.slots →
  (∀ dflt, card ≠ .always dflt) ∧ ∀ dflt, card = .implicit dflt → isDefault k dflt dflt = true

theorem merge_empty {id : Nat} {a : Msg} (hp : plainOmits (C.schema id)) (hl : a.slots.length = (C.schema id).slots.length) :
    mergeMsg C mv id a (C.schema id).default = a := by
  rw [mergeMsg_eq]
  have e : mergeSlots C mv (C.schema id).slots a.slots (C.schema id).default.slots = a.slots := by
    simp only [MsgD.default]
    apply mergeSlots_empty hl
    intro sd hsd d
    cases sd with
    | oneof alts => exact mergeSlot_nil ..
    | field n k card =>
      have := hp n k card hsd
      cases card with
      | implicit dflt => simp only [SlotD.initial, mergeSlot, this.2 dflt rfl, if_true]
      | always dflt => exact absurd rfl (this.1 dflt)
      | _ => exact mergeSlot_nil ..
  have e2 : mergeUnk (C.schema id).unk a.unk (C.schema id).default.unk = a.unk := by
    simp only [MsgD.default, mergeUnk]
    split <;> rfl
  rw [e, e2]

/-! ### Objects can be written -/

theorem nests_obj {strict : Bool} : ∀ d id m, objLike strict C d id m → nests C d id m
  | 0, _, _, h => h.elim
  | d + 1, id, m, ⟨_, h2, _⟩ => by
    intro p hp e he k hk
    have h := h2 p hp
    have val : ∀ {k v}, valOk C (objLike strict C d) k v → valNests C (nests C d) k v := by
      intro k v h
      cases k with
      | scalar sc => trivial
      | msg s => obtain ⟨m, rfl, h⟩ := h; exact nests_obj d s m h
      | group s => obtain ⟨m, rfl, h⟩ := h; exact nests_obj d s m h
    obtain ⟨sd, es⟩ := p
    simp only at h he hk
    cases sd with
    | oneof alts =>
      rcases h with rfl | ⟨j, n, k', v, rfl, hj, hv⟩
      · cases he
      · rw [List.mem_singleton.1 he] at hk ⊢
        simp only [kindOf, hj, Option.map_some] at hk
        cases hk
        exact val hv
    | field n k' card =>
      cases hk
      have one : ∀ v, valOk C (objLike strict C d) k v → es = [(0, v)] → valNests C (nests C d) k e.2 := by
        rintro v hv rfl
        rw [List.mem_singleton.1 he]; exact val hv
      cases card with
      | implicit dflt => obtain ⟨v, e, hv, -⟩ := h; exact one v hv e
      | always dflt => obtain ⟨v, e, hv⟩ := h; exact one v hv e
      | optional =>
        rcases h with rfl | ⟨v, e, hv⟩
        · cases he
        · exact one v hv e
      | repeated p => exact val (h e he).2
      | map u => cases u with
        | true => exact val (h.1 e he).2
        | false => exact val (h e he).2

theorem utf8_obj {strict : Bool} : ∀ d id m, objLike strict C d id m → utf8Ok C isDefault d id m
  | 0, _, _, h => h.elim
  | d + 1, id, m, ⟨_, h2, _⟩ => by
    intro p hp e he k hk _
    have h := h2 p hp
    have val : ∀ {k v}, valOk C (objLike strict C d) k v → (k = .scalar (.str true) → C.utf8 v.str = true) ∧ valNests C (utf8Ok C isDefault d) k v := by
      intro k v h
      cases k with
      | scalar sc =>
        refine ⟨?_, trivial⟩
        rintro ⟨⟩
        obtain ⟨bs, rfl, h⟩ := h
        exact h rfl
      | msg s => obtain ⟨m, rfl, h⟩ := h; exact ⟨by simp, utf8_obj d s m h⟩
      | group s => obtain ⟨m, rfl, h⟩ := h; exact ⟨by simp, utf8_obj d s m h⟩
    obtain ⟨sd, es⟩ := p
    simp only at h he hk
    cases sd with
    | oneof alts =>
      rcases h with rfl | ⟨j, n, k', v, rfl, hj, hv⟩
      · cases he
      · rw [List.mem_singleton.1 he] at hk ⊢
        simp only [kindOf, hj, Option.map_some] at hk
        cases hk
        exact val hv
    | field n k' card =>
      cases hk
      have one : ∀ v, valOk C (objLike strict C d) k v → es = [(0, v)] → (k = .scalar (.str true) → C.utf8 e.2.str = true) ∧ valNests C (utf8Ok C isDefault d) k e.2 := by
        rintro v hv rfl
        rw [List.mem_singleton.1 he]; exact val hv
      cases card with
      | implicit dflt => obtain ⟨v, e, hv, -⟩ := h; exact one v hv e
      | always dflt => obtain ⟨v, e, hv⟩ := h; exact one v hv e
      | optional =>
        rcases h with rfl | ⟨v, e, hv⟩
        · cases he
        · exact one v hv e
      | repeated p => exact val (h e he).2
      | map u => cases u with
        | true => exact val (h.1 e he).2
        | false => exact val (h e he).2

theorem numbers_obj (hS : schemaOk C) : numbersOk C := by
  intro id sd hsd
  have r : ∀ n : BitVec 32, sd.hasNumber n = true → n.toNat < 2 ^ 29 := by
    intro n hn
    have := hS.range id n.toNat (by
      rw [← slotKind_has] at hn
      unfold fieldKind
      rw [List.findSome?_isSome_iff]
      exact ⟨sd, hsd, hn⟩)
    omega
  cases sd with
  | field n k c => exact r n (by simp [SlotD.hasNumber])
  | oneof alts => intro a ha; exact r a.1 (by simp only [SlotD.hasNumber, List.any_eq_true]; exact ⟨a, ha, by simp⟩)

end
end HppProto
