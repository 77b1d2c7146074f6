import Verif.Spec.Chunks
import Verif.Proofs.Write
/-! Lemmas about writing to sinks. -/
namespace HppProto
open Spec

/-! ### varints handed to the archive are short -/

/-- Varints are below 2^64, or not larger than the number of bytes handed over. -/
def VarSmall (ps : List Piece) : Prop :=
  ∀ n, Piece.varint n ∈ ps → n < 2 ^ 64 ∨ n ≤ (piecesBytes ps).length

theorem VarSmall.append {a b : List Piece} (ha : VarSmall a) (hb : VarSmall b) : VarSmall (a ++ b) := by
  intro n hn
  rw [piecesBytes_append, List.length_append]
  rcases List.mem_append.1 hn with h | h
  · rcases ha n h with h | h
    · exact .inl h
    · right; omega
  · rcases hb n h with h | h
    · exact .inl h
    · right; omega

theorem VarSmall.nil : VarSmall [] := by intro n h; cases h

theorem VarSmall.small {n : Nat} (h : n < 2 ^ 64) : VarSmall [.varint n] := by
  intro k hk; simp at hk; subst hk; exact .inl h

theorem VarSmall.raw (bs : List Byte) : VarSmall [.raw bs] := by
  intro k hk; simp at hk

theorem VarSmall.cons {p : Piece} {ps : List Piece} (h : VarSmall [p]) (h' : VarSmall ps) : VarSmall (p :: ps) :=
  VarSmall.append h h'

theorem VarSmall.tag (n : BitVec 32) (wt : WireType) : VarSmall [tagPiece n wt] :=
  VarSmall.small (Nat.lt_trans (makeTag n wt).isLt (by decide))

theorem VarSmall.scalar (sc : Scalar) (v : Val) : VarSmall (scalarPieces sc v) := by
  cases sc with
  | varint ty => exact VarSmall.small (encodeBits_lt64 ty _)
  | bool => exact VarSmall.raw _
  | «enum» cl => exact VarSmall.small v.bits.isLt
  | fixed32 f => exact VarSmall.raw _
  | fixed64 f => exact VarSmall.raw _
  | str c =>
    intro n hn
    simp [scalarPieces] at hn
    right; simp [scalarPieces, piecesBytes, Piece.bytes, hn]

theorem VarSmall.scalars (sc : Scalar) (vs : List Val) : VarSmall (vs.flatMap (scalarPieces sc)) := by
  induction vs with
  | nil => exact VarSmall.nil
  | cons v vs ih => exact VarSmall.append (VarSmall.scalar sc v) ih

theorem VarSmall.andThen {a : SerOut} {f : Nat → SerOut} (ha : VarSmall a.1) (hf : ∀ pos, VarSmall (f pos).1) :
    VarSmall (a.andThen f).1 := by
  obtain ⟨p, s⟩ := a
  cases s with
  | ok pos => exact VarSmall.append ha (hf pos)
  | fail => exact ha
  | ub => exact ha

theorem VarSmall.item (C : Cfg) {cache : List Nat} (hc : ∀ x ∈ cache, x < 2 ^ 64) {rec : Nat → Msg → Nat → SerOut}
    (hr : ∀ id m pos, VarSmall (rec id m pos).1) (it : Item) (pos : Nat) : VarSmall (serItem C cache rec it pos).1 := by
  cases it with
  | packed n sc vs =>
    rw [serItem]
    split
    · split
      · exact VarSmall.nil
      · next len he =>
        exact VarSmall.cons (VarSmall.tag _ _) (VarSmall.cons (VarSmall.small (hc _ (List.mem_of_getElem? he))) (VarSmall.scalars sc vs))
    · exact VarSmall.cons (VarSmall.tag _ _) (VarSmall.cons (VarSmall.small (Nat.mod_lt _ (by decide))) (VarSmall.raw _))
  | one n k v =>
    cases k with
    | scalar sc =>
      rw [serItem]
      split
      · exact VarSmall.nil
      · exact VarSmall.cons (VarSmall.tag _ _) (VarSmall.scalar sc v)
    | msg id =>
      rw [serItem]
      split
      · exact VarSmall.nil
      · next len he =>
        exact VarSmall.andThen (VarSmall.cons (VarSmall.tag _ _) (VarSmall.small (hc _ (List.mem_of_getElem? he)))) (hr _ _)
    | group id =>
      rw [serItem]
      exact VarSmall.andThen (VarSmall.tag _ _) (fun pos => VarSmall.andThen (hr _ _ _) (fun _ => VarSmall.tag _ _))

theorem VarSmall.items (C : Cfg) {cache : List Nat} (hc : ∀ x ∈ cache, x < 2 ^ 64) {rec : Nat → Msg → Nat → SerOut}
    (hr : ∀ id m pos, VarSmall (rec id m pos).1) : ∀ (its : List Item) (pos : Nat), VarSmall (serItems C cache rec its pos).1
  | [], _ => VarSmall.nil
  | it :: its, pos => VarSmall.andThen (VarSmall.item C hc hr it pos) (VarSmall.items C hc hr its)

theorem VarSmall.msg (C : Cfg) {cache : List Nat} (hc : ∀ x ∈ cache, x < 2 ^ 64) (d : Nat) :
    ∀ id m pos, VarSmall (serMsg C cache d id m pos).1 := by
  induction d with
  | zero => intro id m pos; exact VarSmall.nil
  | succ d ih =>
    intro id m pos
    rw [serMsg]
    exact VarSmall.andThen (VarSmall.items C hc ih _ _) (fun pos => by intro n hn; simp at hn)

theorem cacheMsg_small (C : Cfg) (d : Nat) : ∀ id m, ∀ x ∈ cacheMsg C d id m, x < 2 ^ 64 := by
  have hs : ∀ n, saturate n < 2 ^ 64 := by
    intro n
    have : maxMessageSize < 2 ^ 64 := by decide
    rw [saturate]; split <;> omega
  induction d with
  | zero => intro id m x h; cases h
  | succ d ih =>
    intro id m x h
    rw [cacheMsg, List.mem_flatMap] at h
    obtain ⟨it, _, h⟩ := h
    cases it with
    | packed n sc vs =>
      rw [cacheItem] at h
      split at h
      · simp at h; subst h; exact hs _
      · cases h
    | one n k v =>
      cases k with
      | scalar sc => cases h
      | msg i =>
        rcases List.mem_cons.1 h with rfl | h
        · exact hs _
        · exact ih _ _ _ h
      | group i => exact ih _ _ _ h

/-- Every varint handed to the archive takes at most ten bytes. -/
def VarShort (ps : List Piece) : Prop := ∀ n, Piece.varint n ∈ ps → (packVarint n).length ≤ 10

theorem VarSmall.short {ps : List Piece} (h : VarSmall ps) (hl : (piecesBytes ps).length < 2 ^ 64) : VarShort ps := by
  intro n hn
  apply packVarint_length_le10
  rcases h n hn with h | h <;> omega

/-! ### the state of the chunked archive -/

variable {σ : Type} (S : Sink σ)

theorem handed_length (s : σ) (k : Nat) : (handed S s k).length = k := by
  induction k generalizing s with
  | zero => rfl
  | succ k ih => simp [handed, ih]

theorem handed_succ (s : σ) (k : Nat) : handed S s (k + 1) = handed S s k ++ [(S.next (after S s k)).1] := by
  induction k generalizing s with
  | zero => rfl
  | succ k ih => rw [handed, ih]; rfl

theorem after_succ (s : σ) (k : Nat) : after S s (k + 1) = (S.next (after S s k)).2 := by
  induction k generalizing s with
  | zero => rfl
  | succ k ih => rw [after, ih]; rfl

/-- What holds of the archive after `j` chunks were taken and `bs` was written. -/
structure Good (s : σ) (st : ChunkSt σ) (bs : List Byte) (j : Nat) : Prop where
  sink : st.sink = after S s j
  poured : Poured (handed S s j) bs st.chunks.reverse
  room : bs.length + st.rem = (handed S s j).flatten.length
  isNone : st.chunks = [] → st.rem = 0
  isSome : ∀ c cs, st.chunks = c :: cs → st.pos + st.rem = c.length

theorem good_init (s : σ) : Good S s ⟨s, [], 0, 0⟩ [] 0 :=
  ⟨rfl, ⟨rfl, Nat.le_refl _, rfl⟩, rfl, fun _ => rfl, fun _ _ h => (by cases h)⟩

variable {S}

theorem Good.flatten_length {s : σ} {st : ChunkSt σ} {bs : List Byte} {j : Nat} (g : Good S s st bs j) :
    st.chunks.reverse.flatten.length = (handed S s j).flatten.length := by
  rw [List.length_flatten, List.length_flatten, g.poured.1]

theorem Good.put {s : σ} {st : ChunkSt σ} {bs : List Byte} {j : Nat} (g : Good S s st bs j) {data : List Byte}
    (h : data.length ≤ st.rem) :
    ∃ st', st.put data = .ok st' ∧ Good S s st' (bs ++ data) j ∧ st'.rem = st.rem - data.length := by
  cases hc : st.chunks with
  | nil =>
    have h0 := g.isNone hc
    have : data = [] := List.length_eq_zero_iff.1 (by omega)
    subst this
    refine ⟨st, ?_, by simpa using g, by simp⟩
    rw [ChunkSt.put, hc]; simp
  | cons c cs =>
    have hp := g.isSome c cs hc
    obtain ⟨p1, p2, p3⟩ := g.poured
    have hfl := g.flatten_length
    have hroom := g.room
    rw [hc, List.reverse_cons, List.flatten_append, List.flatten_singleton] at p3 hfl
    rw [List.length_append] at hfl
    generalize hH : (handed S s j).flatten = H at *
    generalize hA : cs.reverse.flatten = A at *
    have hpos : bs.length = A.length + st.pos := by omega
    have e1 : A ++ c.take st.pos = bs := by
      have := congrArg (List.take bs.length) p3
      rw [List.take_left, hpos, List.take_append, List.take_of_length_le (by omega), Nat.add_sub_cancel_left] at this
      exact this
    have e2 : ∀ k, c.drop (st.pos + k) = H.drop (bs.length + k) := by
      intro k
      have := congrArg (List.drop (bs.length + k)) p3
      rw [List.drop_append, List.drop_append, List.drop_eq_nil_of_le (show A.length ≤ _ by omega),
        List.drop_eq_nil_of_le (show bs.length ≤ bs.length + k by omega), List.nil_append, List.nil_append,
        Nat.add_sub_cancel_left, List.drop_drop] at this
      rw [← this]; congr 1; omega
    have hpk : poke c st.pos data = some (c.take st.pos ++ data ++ c.drop (st.pos + data.length)) := by
      rw [poke, if_pos (by omega)]
    refine ⟨⟨st.sink, (c.take st.pos ++ data ++ c.drop (st.pos + data.length)) :: cs, st.pos + data.length,
      st.rem - data.length⟩, by rw [ChunkSt.put, hc]; simp only [hpk], ?_, rfl⟩
    have hcl : (c.take st.pos ++ data ++ c.drop (st.pos + data.length)).length = c.length := by
      simp only [List.length_append, List.length_take, List.length_drop]; omega
    refine ⟨g.sink, ⟨?_, ?_, ?_⟩, ?_, (fun h => by cases h), ?_⟩
    · rw [← p1, hc]; simp only [List.reverse_cons, List.map_append, List.map_cons, List.map_nil, hcl]
    · rw [List.length_append, hH]; omega
    · simp only [List.reverse_cons, List.flatten_append, List.flatten_singleton, hA, hH]
      rw [← List.append_assoc, ← List.append_assoc, e1, List.length_append, ← e2]
    · simp only [List.length_append]; rw [hH]; omega
    · intro c' cs' h'
      simp only at h'
      injection h' with h1 h2
      subst h1
      rw [hcl]
      simp only; omega

theorem Good.out {s : σ} {st : ChunkSt σ} {bs : List Byte} {j : Nat} (g : Good S s st bs j) :
    ∃ j', j ≤ j' ∧ Good S s (st.out S) bs j' ∧ ((st.out S).rem = 0 → ∃ i, j' = i + 1 ∧ (S.next (after S s i)).1 = [] ∧
      (handed S s i).flatten.length = bs.length) := by
  rw [ChunkSt.out]
  split
  · next h0 =>
    have hroom := g.room
    rw [h0, Nat.add_zero] at hroom
    refine ⟨j + 1, by omega, ⟨?_, ⟨?_, ?_, ?_⟩, ?_, (fun h => by cases h), ?_⟩, ?_⟩
    · show (S.next st.sink).2 = _
      rw [g.sink, after_succ]
    · rw [handed_succ]; simp only [List.reverse_cons, List.map_append, g.poured.1, g.sink, List.map_cons, List.map_nil]
    · rw [handed_succ, List.flatten_append, List.length_append]; omega
    · rw [handed_succ, List.flatten_append, List.reverse_cons, List.flatten_append, g.poured.2.2, hroom, List.drop_length,
        List.drop_append, List.drop_eq_nil_of_le (Nat.le_refl _), Nat.sub_self, List.drop_zero, List.append_nil, g.sink]
      simp
    · rw [handed_succ, List.flatten_append, List.length_append, g.sink, List.flatten_singleton, ← hroom]
    · intro c cs h; simp only at h; injection h with h1 h2; subst h1; simp
    · intro h; exact ⟨j, rfl, List.length_eq_zero_iff.1 (g.sink ▸ h), hroom.symm⟩
  · next h0 => exact ⟨j, Nat.le_refl _, g, fun h => absurd h h0⟩

/-- Result of handing `data` to the archive after `bs`: all of it written, or the sink was dry. -/
def Step (S : Sink σ) (s : σ) (bs data : List Byte) (j : Nat) (r : Res (Bool × ChunkSt σ)) : Prop :=
  ∃ b st' done j', r = .ok (b, st') ∧ done <+: data ∧ Good S s st' (bs ++ done) j' ∧ j ≤ j' ∧
    (b = true → done = data) ∧
    (b = false → done ≠ data ∧ ∃ i, j' = i + 1 ∧ (S.next (after S s i)).1 = [] ∧
      (handed S s i).flatten.length = bs.length + done.length)

theorem writeLoop_step {s : σ} (fuel : Nat) : ∀ {data : List Byte} {st : ChunkSt σ} {bs : List Byte} {j : Nat},
    data.length ≤ fuel → Good S s st bs j → Step S s bs data j (writeLoop S fuel data st) := by
  induction fuel with
  | zero =>
    intro data st bs j hf g
    have : data = [] := List.length_eq_zero_iff.1 (by omega)
    subst this
    exact ⟨true, st, [], j, by simp [writeLoop], List.prefix_refl _, by simpa using g, Nat.le_refl _, fun _ => rfl,
      (fun h => by cases h)⟩
  | succ fuel ih =>
    intro data st bs j hf g
    rw [writeLoop]
    split
    · next h =>
      subst h
      exact ⟨true, st, [], j, rfl, List.prefix_refl _, by simpa using g, Nat.le_refl _, fun _ => rfl,
        (fun h => by cases h)⟩
    · next hne =>
      have hpos : 0 < data.length := List.length_pos_iff.2 hne
      obtain ⟨j', hj, g', hdry⟩ := g.out
      simp only
      split
      · next hge =>
        obtain ⟨st', e, g'', _⟩ := g'.put hge
        exact ⟨true, st', data, j', by rw [e]; rfl, List.prefix_refl _, g'', hj, fun _ => rfl, (fun h => by cases h)⟩
      · next hlt =>
        split
        · next h0 =>
          obtain ⟨i, e1, e2, e3⟩ := hdry h0
          exact ⟨false, _, [], j', rfl, List.nil_prefix, by simpa using g', hj, (fun h => by cases h),
            fun _ => ⟨Ne.symm hne, i, e1, e2, by simpa using e3⟩⟩
        · next h0 =>
          have hl : (data.take (st.out S).rem).length = (st.out S).rem := by rw [List.length_take]; omega
          obtain ⟨st', e, g'', hr⟩ := g'.put (data := data.take (st.out S).rem) (by omega)
          obtain ⟨b, st2, done, j2, a1, a2, a3, a4, a5, a6⟩ :=
            ih (data := data.drop (st.out S).rem) (by rw [List.length_drop]; omega) g''
          have hd : data = data.take (st.out S).rem ++ data.drop (st.out S).rem := (List.take_append_drop _ _).symm
          refine ⟨b, st2, data.take (st.out S).rem ++ done, j2, ?_, ?_, ?_, by omega, ?_, ?_⟩
          · rw [e]; exact a1
          · conv => rhs; rw [hd]
            exact (List.prefix_append_right_inj _).2 a2
          · rw [← List.append_assoc]; exact a3
          · intro hb; rw [a5 hb, ← hd]
          · intro hb
            obtain ⟨n1, i, n2, n3, n4⟩ := a6 hb
            refine ⟨fun h => n1 ?_, i, n2, n3, by rw [n4]; simp only [List.length_append]; omega⟩
            exact List.append_cancel_left (h.trans hd)

theorem chunkPiece_step {s : σ} {p : Piece} {st : ChunkSt σ} {bs : List Byte} {j : Nat} (g : Good S s st bs j)
    (hp : ∀ n, p = .varint n → (packVarint n).length ≤ 10) : Step S s bs p.bytes j (chunkPiece S p st) := by
  cases p with
  | raw data => exact writeLoop_step _ (Nat.le_refl _) g
  | varint n =>
    rw [chunkPiece]
    obtain ⟨j', hj, g', _⟩ := g.out
    have h10 := hp n rfl
    split
    · next h =>
      obtain ⟨st', e, g'', _⟩ := g'.put (data := packVarint n) (by omega)
      exact ⟨true, st', _, j', by rw [e]; rfl, List.prefix_refl _, g'', hj, fun _ => rfl, (fun h => by cases h)⟩
    · obtain ⟨b, st2, done, j2, a1, a2, a3, a4, a5⟩ := writeLoop_step (data := packVarint n) _ (Nat.le_refl _) g'
      exact ⟨b, st2, done, j2, a1, a2, a3, by omega, a5⟩

theorem chunkPieces_step {s : σ} : ∀ {ps : List Piece} {st : ChunkSt σ} {bs : List Byte} {j : Nat}, Good S s st bs j →
    VarShort ps → Step S s bs (piecesBytes ps) j (chunkPieces S ps st)
  | [], st, bs, j, g, _ => ⟨true, st, [], j, rfl, List.prefix_refl _, by simpa using g, Nat.le_refl _, fun _ => rfl,
      (fun h => by cases h)⟩
  | p :: ps, st, bs, j, g, hs => by
    obtain ⟨b, st1, d1, j1, a1, a2, a3, a4, a5, a6⟩ := chunkPiece_step g (p := p) (fun n e => hs n (by simp [e]))
    rw [chunkPieces, piecesBytes_cons]
    rw [a1]
    show Step S s bs _ j (if b = true then chunkPieces S ps st1 else .ok (false, st1))
    cases b with
    | false =>
      obtain ⟨n1, n2⟩ := a6 rfl
      refine ⟨false, st1, d1, j1, rfl, a2.trans (List.prefix_append _ _), a3, a4, (fun h => by cases h), fun _ => ⟨?_, n2⟩⟩
      intro h
      obtain ⟨t, ht⟩ := a2
      have h' := congrArg List.length h
      rw [List.length_append] at h'
      have h'' := congrArg List.length ht
      rw [List.length_append] at h''
      have : t = [] := List.length_eq_zero_iff.1 (by omega)
      subst this
      exact n1 (by simpa using ht)
    | true =>
      have := a5 rfl
      subst this
      obtain ⟨b, st2, d2, j2, c1, c2, c3, c4, c5, c6⟩ := chunkPieces_step a3 (fun n h => hs n (by simp [h])) (ps := ps)
      refine ⟨b, st2, p.bytes ++ d2, j2, by rw [if_pos rfl]; exact c1, (List.prefix_append_right_inj _).2 c2,
        by rw [← List.append_assoc]; exact c3, by omega, fun h => by rw [c5 h], ?_⟩
      intro h
      obtain ⟨n1, i, n2, n3, n4⟩ := c6 h
      refine ⟨fun h => n1 (List.append_cancel_left h), i, n2, n3, by rw [n4]; simp only [List.length_append]; omega⟩

/-- Total size of the first chunks grows with their number. -/
theorem handed_mono (s : σ) {i k : Nat} (h : i ≤ k) : (handed S s i).flatten.length ≤ (handed S s k).flatten.length := by
  induction k with
  | zero => have : i = 0 := by omega
            subst this; exact Nat.le_refl _
  | succ k ih =>
    rcases Nat.lt_or_ge k i with h1 | h1
    · have : i = k + 1 := by omega
      subst this; exact Nat.le_refl _
    · have := ih h1
      rw [handed_succ, List.flatten_append, List.length_append]; omega

theorem handed_mem (s : σ) {i k : Nat} (h : i < k) : (S.next (after S s i)).1 ∈ handed S s k := by
  induction k with
  | zero => omega
  | succ k ih =>
    rw [handed_succ, List.mem_append]
    rcases Nat.lt_or_ge i k with h1 | h1
    · exact .inl (ih h1)
    · have : i = k := by omega
      subst this; right; simp

theorem handed_dry (s : σ) {i k : Nat} (h : k ≤ i) (hd : ∀ i, k ≤ i → (S.next (after S s i)).1 = []) :
    (handed S s i).flatten.length = (handed S s k).flatten.length := by
  induction i with
  | zero => have : k = 0 := by omega
            subst this; rfl
  | succ i ih =>
    rcases Nat.lt_or_ge i k with h1 | h1
    · have : k = i + 1 := by omega
      subst this; rfl
    · rw [handed_succ, List.flatten_append, List.length_append, hd i h1, ih h1]; rfl


/-! ### whole messages -/

section
variable (C : Cfg)

/-- The writing pass on a message of legal size. -/
theorem ser_short (hN : Spec.numbersOk C) {d id : Nat} {m : Msg} (h : Spec.nests C d id m)
    (hl : (enc C d id m).length < maxMessageSize) :
    ∃ ps st, serMsg C (cacheMsg C d id m) d id m 0 = (ps, st) ∧ VarShort ps ∧ piecesBytes ps <+: enc C d id m ∧
      ((Spec.utf8Ok C isDefault d id m ∧ st = .ok (countMsg C d id m).1 ∧ piecesBytes ps = enc C d id m) ∨
       (¬ Spec.utf8Ok C isDefault d id m ∧ st = .fail)) := by
  have hmax : maxMessageSize < 2 ^ 64 := by decide
  obtain ⟨r1, r2⟩ := ser_run C hN h hl
  have hv := VarSmall.msg C (cacheMsg_small C d id m) d id m 0
  by_cases hu : Spec.utf8Ok C isDefault d id m
  · obtain ⟨ps, e1, e2⟩ := r1 hu
    rw [e1] at hv
    exact ⟨ps, _, e1, hv.short (by rw [e2]; omega), e2 ▸ List.prefix_refl _, .inl ⟨hu, rfl, e2⟩⟩
  · obtain ⟨ps, e1, e2⟩ := r2 hu
    rw [e1] at hv
    exact ⟨ps, _, e1, hv.short (by have := e2.length_le; simp only; omega), e2, .inr ⟨hu, rfl⟩⟩

theorem sink_too_deep {limit id : Nat} {m : Msg} (mode : Mode) (s : σ) (h : ¬ Spec.nests C (limit + 1) id m) :
    serializeSink S C limit mode id m s = .ok (some .badMessage, s, []) := by
  have hf : (countMsg C (limit + 1) id m).2 = true := by
    cases hh : (countMsg C (limit + 1) id m).2
    · exact absurd ((count_flag C _ _ _).1 hh) h
    · rfl
  rw [serializeSink]; simp [hf]

theorem sink_too_large (hN : Spec.numbersOk C) {limit id : Nat} {m : Msg} (mode : Mode) (s : σ)
    (h : Spec.nests C (limit + 1) id m) (hl : maxMessageSize ≤ (enc C (limit + 1) id m).length)
    (hl2 : (enc C (limit + 1) id m).length < 2 ^ 64) :
    serializeSink S C limit mode id m s = .ok (some .valueTooLarge, s, []) := by
  have hf := (count_flag C (limit + 1) id m).2 h
  have hs := size_run C hN h hl2
  rw [serializeSink]
  simp only [hf, Bool.false_eq_true, if_false]
  rw [hs]
  show Res.bind (Res.ok _) _ = _
  simp only [Res.bind]
  rw [if_pos (by omega)]

theorem sink_run (hN : Spec.numbersOk C) {limit id : Nat} {m : Msg} (mode : Mode) (s : σ)
    (h : Spec.nests C (limit + 1) id m) (hl : (enc C (limit + 1) id m).length < maxMessageSize) {s1 : σ}
    (hs1 : S.setSize (enc C (limit + 1) id m).length s = .ok s1) :
    serializeSink S C limit mode id m s =
      let r := serMsg C (cacheMsg C (limit + 1) id m) (limit + 1) id m 0
      match mode with
      | .contiguous => contiguousSink S r s1
      | .adaptive => if (enc C (limit + 1) id m).length ≤ S.chunkSize s1 then contiguousSink S r s1 else chunkedSink S r s1
      | .chunked => chunkedSink S r s1 := by
  have hmax : maxMessageSize < 2 ^ 64 := by decide
  have hf := (count_flag C (limit + 1) id m).2 h
  have hs := size_run C hN h (by omega)
  rw [serializeSink]
  simp only [hf, Bool.false_eq_true, if_false]
  rw [hs]
  show Res.bind (Res.ok _) _ = _
  simp only [Res.bind]
  rw [if_neg (by omega), hs1]
  rfl

theorem chunkedSink_eq {r : SerOut} {s1 : σ} {b : Bool} {st' : ChunkSt σ}
    (h : chunkPieces S r.1 ⟨s1, [], 0, 0⟩ = .ok (b, st')) : chunkedSink S r s1 =
      (if b then
        match r.2 with
        | .ub => .ub
        | .ok _ => .ok (none, st'.sink, st'.chunks.reverse)
        | .fail => .ok (some .badMessage, st'.sink, st'.chunks.reverse)
      else .ok (some .badMessage, st'.sink, st'.chunks.reverse)) := by
  rw [chunkedSink, h]
  rfl

/-- Everything about the chunked path: it never leaves a chunk; what it wrote is the encoding
or a proper beginning of it, and in that case either a string was refused or the sink handed
out an empty chunk. -/
theorem chunked_run (hN : Spec.numbersOk C) {d id : Nat} {m : Msg} (s1 : σ)
    (h : Spec.nests C d id m) (hl : (enc C d id m).length < maxMessageSize) :
    ∃ st j chunks done, chunkedSink S (serMsg C (cacheMsg C d id m) d id m 0) s1 = .ok (st, after S s1 j, chunks) ∧
      Poured (handed S s1 j) done chunks ∧ done <+: enc C d id m ∧
      ((st = none ∧ done = enc C d id m ∧ Spec.utf8Ok C isDefault d id m) ∨
       (st = some .badMessage ∧ (¬ Spec.utf8Ok C isDefault d id m ∨
         (done.length < (enc C d id m).length ∧ ∃ i, (S.next (after S s1 i)).1 = [] ∧
           (handed S s1 i).flatten.length = done.length)))) := by
  obtain ⟨ps, st, e, hv, hp, hc⟩ := ser_short C hN h hl
  obtain ⟨b, st', done, j, a1, a2, a3, a4, a5, a6⟩ := chunkPieces_step (good_init S s1) hv
  rw [List.nil_append] at a3
  rw [e]
  have hrun := chunkedSink_eq (r := (ps, st)) a1
  simp only at hrun
  rw [hrun, a3.sink]
  cases b with
  | true =>
    rcases hc with ⟨c1, rfl, c3⟩ | ⟨c1, rfl⟩
    · exact ⟨none, j, _, done, rfl, a3.poured, a2.trans hp, .inl ⟨rfl, (a5 rfl).trans c3, c1⟩⟩
    · exact ⟨_, j, _, done, rfl, a3.poured, a2.trans hp, .inr ⟨rfl, .inl c1⟩⟩
  | false =>
    obtain ⟨n1, i, n2, n3, n4⟩ := a6 rfl
    refine ⟨_, j, _, done, rfl, a3.poured, a2.trans hp, .inr ⟨rfl, .inr ⟨?_, i, n3, by simpa using n4⟩⟩⟩
    have h1 := hp.length_le
    have h2 := a2.length_le
    rcases Nat.lt_or_ge done.length (piecesBytes ps).length with h3 | h3
    · omega
    · exact absurd (a2.eq_of_length_le h3) n1

/-- The contiguous path, when the first chunk is large enough. -/
theorem contiguous_run (hN : Spec.numbersOk C) {d id : Nat} {m : Msg} (s1 : σ)
    (h : Spec.nests C d id m) (hl : (enc C d id m).length < maxMessageSize)
    (hroom : (enc C d id m).length ≤ (S.next s1).1.length) :
    ∃ st chunks done, contiguousSink S (serMsg C (cacheMsg C d id m) d id m 0) s1 = .ok (st, after S s1 1, chunks) ∧
      Poured (handed S s1 1) done chunks ∧ done <+: enc C d id m ∧
      ((st = none ∧ done = enc C d id m ∧ Spec.utf8Ok C isDefault d id m) ∨
       (st = some .badMessage ∧ ¬ Spec.utf8Ok C isDefault d id m)) := by
  obtain ⟨ps, st, e, hv, hp, hc⟩ := ser_short C hN h hl
  have hle := hp.length_le
  have hpoke : pokePieces ps (S.next s1).1 0 = some (piecesBytes ps ++ (S.next s1).1.drop (piecesBytes ps).length) := by
    have := pokePieces_ok ps (S.next s1).1 [] ((S.next s1).1.take (piecesBytes ps).length)
      ((S.next s1).1.drop (piecesBytes ps).length) (by simp) (by rw [List.length_take]; omega)
    simpa using this
  have hpour : Poured (handed S s1 1) (piecesBytes ps) [piecesBytes ps ++ (S.next s1).1.drop (piecesBytes ps).length] := by
    refine ⟨?_, ?_, ?_⟩
    · simp only [handed, List.map_cons, List.map_nil, List.length_append, List.length_drop, List.cons.injEq, and_true]
      omega
    · simp only [handed, List.flatten_cons, List.flatten_nil, List.append_nil]; omega
    · simp only [handed, List.flatten_cons, List.flatten_nil, List.append_nil]
  rw [e]
  rcases hc with ⟨c1, rfl, c3⟩ | ⟨c1, rfl⟩
  · exact ⟨none, _, piecesBytes ps, by simp only [contiguousSink, hpoke]; rfl, hpour, hp, .inl ⟨rfl, c3, c1⟩⟩
  · exact ⟨some .badMessage, _, piecesBytes ps, by simp only [contiguousSink, hpoke]; rfl, hpour, hp, .inr ⟨rfl, c1⟩⟩

theorem poke_none {buf bs : List Byte} {k : Nat} (h : buf.length < k + bs.length) : poke buf k bs = none := by
  rw [poke, if_neg (by omega)]

/-- Writing more than the buffer holds is out of bounds. -/
theorem pokePieces_overrun (ps : List Piece) : ∀ (buf : List Byte) (k : Nat), k ≤ buf.length →
    buf.length < k + (piecesBytes ps).length → pokePieces ps buf k = none := by
  induction ps with
  | nil => intro buf k h h'; simp [piecesBytes] at h'; omega
  | cons p ps ih =>
    intro buf k h h'
    rw [piecesBytes_cons, List.length_append] at h'
    rw [pokePieces]
    rcases Nat.lt_or_ge buf.length (k + p.bytes.length) with h1 | h1
    · rw [poke_none h1]
    · have hb : poke buf k p.bytes = some (buf.take k ++ p.bytes ++ buf.drop (k + p.bytes.length)) := by
        rw [poke, if_pos h1]
      have hl : (buf.take k ++ p.bytes ++ buf.drop (k + p.bytes.length)).length = buf.length := by
        simp only [List.length_append, List.length_take, List.length_drop]; omega
      rw [hb]
      exact ih _ _ (by rw [hl]; exact h1) (by rw [hl]; omega)

/-- The contiguous path, when the first chunk is too small. -/
theorem contiguous_overrun (hN : Spec.numbersOk C) {d id : Nat} {m : Msg} (s1 : σ)
    (h : Spec.nests C d id m) (hl : (enc C d id m).length < maxMessageSize) (hu : Spec.utf8Ok C isDefault d id m)
    (hroom : (S.next s1).1.length < (enc C d id m).length) :
    contiguousSink S (serMsg C (cacheMsg C d id m) d id m 0) s1 = .ub := by
  obtain ⟨ps, st, e, hv, hp, hc⟩ := ser_short C hN h hl
  rcases hc with ⟨c1, rfl, c3⟩ | ⟨c1, rfl⟩
  · rw [e]
    have : pokePieces ps (S.next s1).1 0 = none := pokePieces_overrun ps _ 0 (by omega) (by rw [c3]; omega)
    simp only [contiguousSink, this]
  · exact absurd hu c1

end
end HppProto
