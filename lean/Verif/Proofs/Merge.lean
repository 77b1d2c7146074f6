import Verif.Model.Merge
import Verif.Spec.Object
import Verif.Proofs.ReadMembers
/-! Merging into a default message gives the source. -/
namespace HppProto
open Spec

/-! ### Unfolding -/

theorem mergeMsg_eq (C : Cfg) (mv id) (a b : Msg) : mergeMsg C mv id a b =
    ⟨mergeSlots C mv (C.schema id).slots a.slots b.slots, mergeUnk (C.schema id).unk a.unk b.unk⟩ := by
  cases b; simp only [mergeMsg]

theorem mergeSlots_cons (C : Cfg) (mv sd sds d ds s ss) :
    mergeSlots C mv (sd :: sds) (d :: ds) (s :: ss) = mergeSlot C mv sd d s :: mergeSlots C mv sds ds ss := by
  simp only [mergeSlots]

theorem mergeSlots_nil (C : Cfg) (mv sds ds) : mergeSlots C mv sds ds [] = ds := by
  simp only [mergeSlots]

theorem mergeSlots_length (C : Cfg) (mv) : ∀ sds ds ss, (mergeSlots C mv sds ds ss).length = ds.length
  | _, _, [] => by rw [mergeSlots_nil]
  | [], ds, s :: ss => by simp only [mergeSlots]
  | sd :: sds, [], s :: ss => by simp only [mergeSlots]
  | sd :: sds, d :: ds, s :: ss => by rw [mergeSlots_cons]; simp [mergeSlots_length C mv sds ds ss]

theorem mergeElems_eq (C : Cfg) (mv k) : ∀ es, mergeElems C mv k es = es.map (fun e => (0, mergeElem C mv k e.2))
  | [] => by simp only [mergeElems, List.map_nil]
  | (a, v) :: es => by rw [mergeElems, mergeElems_eq C mv k es]; simp

theorem mergeSlot_nil (C : Cfg) (mv sd d) : mergeSlot C mv sd d [] = d := by simp only [mergeSlot]

theorem mergeSlot_repeated (C : Cfg) (mv n k p d es) :
    mergeSlot C mv (.field n k (.repeated p)) d es = d ++ es.map (fun e => (0, mergeElem C mv k e.2)) := by
  cases es with
  | nil => rw [mergeSlot_nil]; simp
  | cons e es => obtain ⟨a, v⟩ := e; simp only [mergeSlot, mergeElems_eq, List.map_cons]

theorem mergeSlot_map (C : Cfg) (mv n k d es) : mergeSlot C mv (.field n k (.map true)) d es = mergeMap d es := by
  cases es with
  | nil => rw [mergeSlot_nil]; simp [mergeMap]
  | cons e es => obtain ⟨a, v⟩ := e; simp only [mergeSlot, if_true]

theorem mergeSlot_seq (C : Cfg) (mv n k d es) : mergeSlot C mv (.field n k (.map false)) d es = d ++ es := by
  cases es with
  | nil => rw [mergeSlot_nil]; simp
  | cons e es => obtain ⟨a, v⟩ := e; simp only [mergeSlot]; simp

theorem mergeVal_scalar (C : Cfg) (mv sc d v) : mergeVal C mv (.scalar sc) d v = v := by
  cases v <;> simp only [mergeVal]

theorem mergeVal_msg (C : Cfg) (mv id d m) : mergeVal C mv (.msg id) d (.msg m) = .msg (mergeMsg C mv id (mergeBase C id d) m) := by
  simp only [mergeVal]

theorem mergeVal_group (C : Cfg) (mv id d m) : mergeVal C mv (.group id) d (.msg m) = .msg (mergeMsg C mv id (mergeBase C id d) m) := by
  simp only [mergeVal]

/-! ### Into the default message -/

section
variable {C : Cfg} {mv : Bool}

theorem mergeElem_ok {P : Nat → Msg → Prop} (ih : ∀ id m, P id m → mergeMsg C mv id (C.schema id).default m = m) {k v}
    (h : valOk C P k v) : mergeElem C mv k v = v := by
  cases k with
  | scalar sc => cases v <;> simp only [mergeElem]
  | msg id =>
    obtain ⟨m, rfl, h⟩ := h
    simp only [mergeElem]
    split
    · rfl
    · rw [ih _ _ h]
  | group id =>
    obtain ⟨m, rfl, h⟩ := h
    simp only [mergeElem]
    split
    · rfl
    · rw [ih _ _ h]

theorem mergeVal_default {P : Nat → Msg → Prop} (ih : ∀ id m, P id m → mergeMsg C mv id (C.schema id).default m = m) {k d v}
    (hd : ∀ sub, k = .msg sub ∨ k = .group sub → mergeBase C sub d = (C.schema sub).default)
    (h : valOk C P k v) : mergeVal C mv k d v = v := by
  cases k with
  | scalar sc => exact mergeVal_scalar ..
  | msg id =>
    obtain ⟨m, rfl, h⟩ := h
    rw [mergeVal_msg, hd id (.inl rfl), ih _ _ h]
  | group id =>
    obtain ⟨m, rfl, h⟩ := h
    rw [mergeVal_group, hd id (.inr rfl), ih _ _ h]

theorem mergeSlot_default {P : Nat → Msg → Prop} (ih : ∀ id m, P id m → mergeMsg C mv id (C.schema id).default m = m) {sd es}
    (hp : ∀ n k card dflt sub, sd = .field n k card → card = .implicit dflt ∨ card = .always dflt →
      k = .msg sub ∨ k = .group sub → dflt = .msg (C.schema sub).default)
    (h : slotOk true C P sd es) : mergeSlot C mv sd sd.initial es = es := by
  cases sd with
  | oneof alts =>
    rcases h with rfl | ⟨j, n, k, v, rfl, ha, hv⟩
    · rw [mergeSlot_nil]; rfl
    · simp only [mergeSlot, ha, SlotD.initial]
      simp
  | field n k card =>
    cases card with
    | implicit dflt =>
      obtain ⟨v, rfl, hv, hd⟩ := h
      simp only [mergeSlot, SlotD.initial]
      split
      · rename_i h; rw [hd rfl h]
      · rw [mergeVal_default ih _ hv]
        intro sub hk
        rw [hp n k _ dflt sub rfl (.inl rfl) hk]; rfl
    | always dflt =>
      obtain ⟨v, rfl, hv⟩ := h
      simp only [mergeSlot, SlotD.initial]
      rw [mergeVal_default ih _ hv]
      intro sub hk
      rw [hp n k _ dflt sub rfl (.inr rfl) hk]; rfl
    | optional =>
      rcases h with rfl | ⟨v, rfl, hv⟩
      · rw [mergeSlot_nil]; rfl
      · simp only [mergeSlot, SlotD.initial]
        rw [mergeVal_default ih _ hv]
        intro sub hk; rfl
    | repeated p =>
      rw [mergeSlot_repeated]
      simp only [SlotD.initial, List.nil_append]
      conv => rhs; rw [← List.map_id es]
      apply List.map_congr_left
      rintro ⟨a, v⟩ he
      obtain ⟨rfl, hv⟩ := h _ he
      rw [mergeElem_ok ih hv]; rfl
    | map u =>
      cases u with
      | true =>
        rw [mergeSlot_map]
        simp only [SlotD.initial, mergeMap]
        split
        · rename_i h; exact (List.isEmpty_iff.1 h).symm
        · simp
      | false => rw [mergeSlot_seq]; rfl

theorem unkAppend_absent {k b} : ∀ {l : List (Nat × List Byte)}, k ∉ l.map Prod.fst → unkAppend k b l = l ++ [(k, b)]
  | [], _ => rfl
  | (k', b') :: l, h => by
    simp only [List.map_cons, List.mem_cons, not_or] at h
    simp only [unkAppend, if_neg (Ne.symm h.1), unkAppend_absent h.2, List.cons_append]

theorem unk_foldl_absent : ∀ {src dest : List (Nat × List Byte)}, (src.map Prod.fst).Nodup →
    (∀ k ∈ src.map Prod.fst, k ∉ dest.map Prod.fst) → src.foldl (fun acc u => unkAppend u.1 u.2 acc) dest = dest ++ src
  | [], _, _, _ => by simp
  | (k, b) :: src, dest, hn, hd => by
    simp only [List.map_cons, List.nodup_cons] at hn
    rw [List.foldl_cons, unkAppend_absent (hd k (by simp)), unk_foldl_absent hn.2]
    · simp
    · intro k' hk' hm
      simp only [List.map_append, List.map_cons, List.map_nil, List.mem_append, List.mem_singleton] at hm
      rcases hm with hm | rfl
      · exact hd k' (by simp [hk']) hm
      · exact hn.1 hk'

theorem mergeUnk_default {D : MsgD} {d unk} (h : unkOk D d unk) : mergeUnk D.unk [] unk = unk := by
  unfold unkOk at h
  unfold mergeUnk
  split at h <;> rename_i e <;> rw [e] <;> simp only
  · exact h.symm
  · rcases h with rfl | ⟨rs, rfl, -⟩ <;> rfl
  · rw [unk_foldl_absent h.1 (by simp)]; simp

theorem mergeSlots_default {P : Nat → Msg → Prop} (ih : ∀ id m, P id m → mergeMsg C mv id (C.schema id).default m = m) :
    ∀ {sds : List SlotD} {ss}, ss.length = sds.length →
    (∀ sd ∈ sds, ∀ n k card dflt sub, sd = .field n k card → card = .implicit dflt ∨ card = .always dflt →
      k = .msg sub ∨ k = .group sub → dflt = .msg (C.schema sub).default) →
    (∀ p ∈ sds.zip ss, slotOk true C P p.1 p.2) → mergeSlots C mv sds (sds.map SlotD.initial) ss = ss
  | [], [], _, _, _ => by rw [mergeSlots_nil]; rfl
  | [], _ :: _, h, _, _ => by simp at h
  | _ :: _, [], h, _, _ => by simp at h
  | sd :: sds, s :: ss, hl, hp, h => by
    rw [List.map_cons, mergeSlots_cons, mergeSlot_default ih (hp sd (by simp)) (h (sd, s) (by simp)),
      mergeSlots_default ih (by simpa using hl) (fun x hx => hp x (by simp [hx])) (fun p hp => h p (by simp [hp]))]

theorem merge_default (hS : schemaOk C) : ∀ d id b, objOk C d id b → mergeMsg C mv id (C.schema id).default b = b
  | 0, _, _, h => h.elim
  | d + 1, id, b, ⟨h1, h2, h3⟩ => by
    rw [mergeMsg_eq]
    have e1 := mergeSlots_default (mv := mv) (merge_default hS d) h1
      (fun sd hsd n k card dflt sub e hc hk => hS.plain id n k card dflt sub (e ▸ hsd) hc hk) h2
    have e2 := mergeUnk_default h3
    simp only [MsgD.default]
    rw [e1, e2]

end

/-! ### Maps -/

theorem look_insertIfAbsent (e : Val) (k) : ∀ {l}, Asc l → look (insertIfAbsent e l) k =
    if entryRank e = k then some ((look l k).getD e) else look l k
  | [], _ => by simp [insertIfAbsent, look_cons, rk, look]
  | (a, x) :: l, h => by
    have hl : Asc l := (List.pairwise_cons.1 h).2
    unfold insertIfAbsent
    split
    · rename_i he
      by_cases hk : entryRank e = k
      · rw [if_pos hk, look_cons, if_pos (show rk (a, x) = k from he.trans hk)]; rfl
      · rw [if_neg hk]
    · rename_i he
      split
      · rename_i hlt
        rw [look_cons]
        by_cases hk : entryRank e = k
        · rw [if_pos hk, if_pos (show rk (0, e) = k from hk)]
          have : look ((a, x) :: l) k = none := by
            rw [look_cons, if_neg (show rk (a, x) ≠ k from fun h' => he (h'.trans hk.symm))]
            cases hh : look l k with
            | none => rfl
            | some y =>
              obtain ⟨b, hb, hr⟩ := look_mem hh
              have h1 := (List.pairwise_cons.1 h).1 _ hb
              have : lexLt (entryRank e) (entryRank y) = true := lexLt_trans hlt h1
              rw [hr, hk, lexLt_irrefl] at this
              cases this
          rw [this]; rfl
        · rw [if_neg hk, if_neg (show rk (0, e) ≠ k from hk)]
      · rw [look_cons, look_cons, look_insertIfAbsent e k hl]
        by_cases hx : rk (a, x) = k
        · rw [if_pos hx, if_pos hx]
          rw [if_neg (fun hk => he (Eq.trans hx hk.symm))]
        · rw [if_neg hx, if_neg hx]

theorem mem_insertIfAbsent {e : Val} {x : Nat × Val} : ∀ {es : List (Nat × Val)}, x ∈ insertIfAbsent e es → x ∈ es ∨ x = (0, e)
  | [], h => by simpa [insertIfAbsent] using h
  | (a, y) :: es, h => by
    unfold insertIfAbsent at h
    split at h
    · exact .inl h
    · split at h
      · rcases List.mem_cons.1 h with rfl | h
        · exact .inr rfl
        · exact .inl h
      · rcases List.mem_cons.1 h with rfl | h
        · exact .inl (by simp)
        · rcases mem_insertIfAbsent h with h | h
          · exact .inl (by simp [h])
          · exact .inr h

theorem asc_insertIfAbsent (e : Val) : ∀ {l}, Asc l → Asc (insertIfAbsent e l)
  | [], _ => by simp [insertIfAbsent, Asc]
  | (a, x) :: l, h => by
    have ⟨h1, hl⟩ := List.pairwise_cons.1 h
    unfold insertIfAbsent
    split
    · exact h
    · rename_i he
      split
      · rename_i hlt
        refine List.pairwise_cons.2 ⟨?_, h⟩
        intro p hp
        rcases List.mem_cons.1 hp with rfl | hp
        · exact hlt
        · exact lexLt_trans hlt (h1 p hp)
      · rename_i hlt
        refine List.pairwise_cons.2 ⟨?_, asc_insertIfAbsent e hl⟩
        intro p hp
        rcases mem_insertIfAbsent hp with hp | rfl
        · exact h1 p hp
        · exact lexLt_total (Ne.symm he) (by simpa using hlt)

/-- All old entries inserted where absent. -/
def absentAll (old : List (Nat × Val)) (src : List (Nat × Val)) : List (Nat × Val) := old.foldl (fun acc e => insertIfAbsent e.2 acc) src

theorem absentAll_asc : ∀ (old : List (Nat × Val)) {src}, Asc src → Asc (absentAll old src)
  | [], _, h => h
  | e :: old, _, h => absentAll_asc old (asc_insertIfAbsent e.2 h)

theorem absentAll_zero : ∀ (old : List (Nat × Val)) {src : List (Nat × Val)}, (∀ p ∈ src, p.1 = 0) → ∀ p ∈ absentAll old src, p.1 = 0
  | [], _, h => h
  | e :: old, _, h => absentAll_zero old (fun p hp => by
      rcases mem_insertIfAbsent hp with hp | rfl
      · exact h p hp
      · rfl)

theorem look_absentAll (k) : ∀ (old : List (Nat × Val)) {src}, Asc src → look (absentAll old src) k = (look src k).or (look old k)
  | [], src, _ => by simp [absentAll, look]
  | e :: old, src, h => by
    show look (absentAll old (insertIfAbsent e.2 src)) k = _
    rw [look_absentAll k old (asc_insertIfAbsent e.2 h), look_insertIfAbsent _ _ h, look_cons]
    by_cases hk : entryRank e.2 = k
    · rw [if_pos hk, if_pos (show rk e = k from hk)]
      cases look src k <;> rfl
    · rw [if_neg hk, if_neg (show rk e ≠ k from hk)]

theorem look_map_filter (k) : ∀ {l : List (Nat × Val)}, Asc l → ((l.map Prod.snd).filter (fun e => entryRank e = k)).getLast? = look l k
  | [], _ => rfl
  | p :: l, h => by
    have ⟨h1, hl⟩ := List.pairwise_cons.1 h
    rw [look_cons, List.map_cons]
    by_cases hp : rk p = k
    · have : (l.map Prod.snd).filter (fun e => entryRank e = k) = [] := by
        rw [List.filter_eq_nil_iff]
        intro e he
        obtain ⟨q, hq, rfl⟩ := List.mem_map.1 he
        have := lexLt_ne (h1 q hq)
        simp only [decide_eq_true_eq]
        intro e; exact this (hp.trans e.symm)
      rw [if_pos hp, List.filter_cons_of_pos (by simpa using hp), this]; rfl
    · rw [if_neg hp, List.filter_cons_of_neg (by simpa using hp), look_map_filter k hl]

/-- Merging maps is inserting or assigning every entry of the source. -/
theorem mergeMap_eq {dest src : List (Nat × Val)} (hd : Asc dest) (hs : Asc src) (zd : ∀ p ∈ dest, p.1 = 0) (zs : ∀ p ∈ src, p.1 = 0) :
    mergeMap dest src = insertAll (src.map Prod.snd) dest := by
  have key : absentAll dest src = insertAll (src.map Prod.snd) dest := by
    apply asc_ext (absentAll_asc _ hs) (asc_insertAll _ hd) (absentAll_zero _ zs) (zero_insertAll _ zd)
    intro k
    rw [look_absentAll k dest hs, look_insertAll k _ hd, look_map_filter k hs]
  unfold mergeMap
  split
  · rename_i h; rw [List.isEmpty_iff.1 h]; rfl
  · split
    · rename_i h
      rw [List.isEmpty_iff.1 h] at key ⊢
      exact key
    · exact key

end HppProto
