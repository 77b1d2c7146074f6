import Verif.Proofs.DynamicWrite
import Verif.Proofs.Sink

/-! The third pass of the writer of dynamic messages. Helper lemmas for `Verif/Props/DynamicWrite.lean`. -/

namespace HppProto

/-- Two runs end alike, and after success have handed out the same bytes. -/
def SerSame (a b : SerOut) : Prop :=
  a.2 = b.2 ∧ ((∃ pos, a.2 = .ok pos) → piecesBytes a.1 = piecesBytes b.1)

theorem SerSame.refl (a : SerOut) : SerSame a a := ⟨rfl, fun _ => rfl⟩

theorem SerSame.andThen {a b : SerOut} {f g : Nat → SerOut} (h : SerSame a b)
    (hf : ∀ pos, SerSame (f pos) (g pos)) : SerSame (a.andThen f) (b.andThen g) := by
  obtain ⟨pa, sa⟩ := a
  obtain ⟨pb, sb⟩ := b
  obtain ⟨h1, h2⟩ := h
  simp only at h1 h2
  subst h1
  cases sa with
  | ok pos =>
    obtain ⟨h3, h4⟩ := hf pos
    refine ⟨h3, fun hok => ?_⟩
    have := h2 ⟨pos, rfl⟩
    simp only [SerOut.andThen, piecesBytes, List.flatMap_append] at this hok ⊢
    rw [this, show (f pos).1.flatMap Piece.bytes = (g pos).1.flatMap Piece.bytes from h4 hok]
  | fail => exact ⟨rfl, fun ⟨_, h⟩ => by cases h⟩
  | ub => exact ⟨rfl, fun ⟨_, h⟩ => by cases h⟩

theorem serItems_append (C : Cfg) (cache : List Nat) (rec) : ∀ (a b : List Item) (pos : Nat),
    serItems C cache rec (a ++ b) pos = (serItems C cache rec a pos).andThen (serItems C cache rec b)
  | [], b, pos => by simp [serItems, SerOut.andThen]
  | x :: a, b, pos => by
    simp only [List.cons_append, serItems]
    rcases serItem C cache rec x pos with ⟨p, s⟩
    cases s with
    | ok pos' =>
      simp only [SerOut.andThen, serItems_append C cache rec a b pos']
      rcases serItems C cache rec a pos' with ⟨p2, s2⟩
      cases s2 <;> simp [SerOut.andThen]
    | fail => rfl
    | ub => rfl

theorem serItems_single (C : Cfg) (cache : List Nat) (rec) (it : Item) (pos : Nat) :
    serItems C cache rec [it] pos = serItem C cache rec it pos := by
  simp only [serItems]
  rcases serItem C cache rec it pos with ⟨p, s⟩
  cases s <;> simp [SerOut.andThen]

theorem serAll_same {α β} {C : Cfg} {cache : List Nat} {rec} {one : α → Nat → SerOut} {mk : β → Item} :
    ∀ (xs : List α) (ys : List β) (pos : Nat), xs.length = ys.length →
    (∀ p ∈ xs.zip ys, ∀ pos, SerSame (serItem C cache rec (mk p.2) pos) (one p.1 pos)) →
    SerSame (serItems C cache rec (ys.map mk) pos) (serAll one xs pos)
  | [], [], _, _, _ => .refl _
  | x :: xs, y :: ys, pos, hl, h => by
    simp only [List.map_cons, serItems, serAll]
    exact (h (x, y) (by simp) pos).andThen fun pos =>
      serAll_same xs ys pos (by simpa using hl) fun p hp => h p (by simp [hp])
  | [], _ :: _, _, hl, _ => by simp at hl
  | _ :: _, [], _, hl, _ => by simp at hl

theorem zip_self_map {α β} (g : α → β) (xs : List α) : ∀ p ∈ xs.zip (xs.map g), p.2 = g p.1 := by
  induction xs with
  | nil => simp
  | cons x xs ih =>
    intro p hp
    simp only [List.map_cons, List.zip_cons_cons, List.mem_cons] at hp
    rcases hp with rfl | hp
    · rfl
    · exact ih p hp

section
variable {rel : Nat → DynMsg → Msg → Prop} {m : DynMsg} (C : Cfg) (cache : List Nat)

theorem dynSerScalar_eq {srec} {f : DynField} {sc : Scalar} (hk : f.kind = .scalar sc) (hp : f.packed = false)
    (v : Val) (pos : Nat) :
    dynSerScalar C.utf8 f sc v pos = serItem C cache srec (.one f.number (.scalar sc) v) pos := by
  have e : f.tagPiece = tagPiece f.number sc.wireType := by
    simp only [DynField.tagPiece, DynField.serializedTag, DynField.tagWire, hp, hk, tagPiece, Bool.false_eq_true,
      if_false, Kind.wireType]
  simp only [dynSerScalar, serItem, utf8Fails, e]
  rfl

theorem dynSerOne_same {drec : Nat → DynMsg → Nat → SerOut} {srec : Nat → Msg → Nat → SerOut}
    (hrec : ∀ id s N, rel id s N → ∀ pos, SerSame (srec id N pos) (drec id s pos)) {f : DynField} {id : Nat}
    {s : DynMsg} {N : Msg} (h : rel id s N) (pos : Nat) :
    SerSame (serItem C cache srec (.one f.number (.msg id) (.msg N)) pos)
      (dynSerOne cache (drec id) f false s pos) ∧
    SerSame (serItem C cache srec (.one f.number (.group id) (.msg N)) pos)
      (dynSerOne cache (drec id) f true s pos) := by
  constructor
  · simp only [serItem, dynSerOne, Val.asMsg, Bool.false_eq_true, if_false]
    cases cache[pos]? with
    | none => exact .refl _
    | some len => exact (SerSame.refl _).andThen fun pos => hrec _ _ _ h pos
  · simp only [serItem, dynSerOne, Val.asMsg, if_true]
    refine (SerSame.refl _).andThen fun pos => ?_
    have := hrec _ _ _ h pos
    revert this
    rcases srec id N pos with ⟨pa, sa⟩
    rcases drec id s pos with ⟨pb, sb⟩
    rintro ⟨h1, h2⟩
    simp only at h1 h2
    subst h1
    cases sa with
    | ok pos =>
      refine ⟨rfl, fun _ => ?_⟩
      have := h2 ⟨pos, rfl⟩
      simp only [SerOut.andThen, SerOut.close, piecesBytes, List.flatMap_append] at this ⊢
      rw [this]
    | fail => exact ⟨rfl, fun ⟨_, h⟩ => by cases h⟩
    | ub => exact ⟨rfl, fun ⟨_, h⟩ => by cases h⟩

theorem rawPacked_bytes (sc : Scalar) (vs : List Val) :
    piecesBytes [.raw (rawPacked sc vs)] = piecesBytes (vs.flatMap (scalarPieces sc)) := by
  simp only [piecesBytes, List.flatMap_cons, List.flatMap_nil, List.append_nil, Piece.bytes, rawPacked]
  rw [List.flatMap_assoc]

/-- One field: nothing if absent, else what the visitor writes. -/
def dynSerPart (utf8 : List Byte → Bool) (cache : List Nat) (rec : Nat → DynMsg → Nat → SerOut) (f : DynField)
    (m : DynMsg) (p : Bool) (pos : Nat) : SerOut :=
  if p then dynSerField utf8 cache rec f m pos else ([], .ok pos)

theorem dynSerField_same {drec : Nat → DynMsg → Nat → SerOut} {srec : Nat → Msg → Nat → SerOut}
    (hrec : ∀ id s N, rel id s N → ∀ pos, SerSame (srec id N pos) (drec id s pos)) {f : DynField}
    {its : List Item} (h : FieldItems rel m f its) (pos : Nat) : ∃ p, f.present m = .ok p ∧
    SerSame (serItems C cache srec its pos) (dynSerPart C.utf8 cache drec f m p pos) := by
  cases h with
  | absent hp => exact ⟨false, hp, .refl _⟩
  | @num v sc hp hk hpack hc =>
    refine ⟨true, hp, ?_⟩
    rw [serItems_single]
    simp only [dynSerPart, if_true, dynSerField, hc, hk]
    rw [dynSerScalar_eq C cache (srec := srec) hk hpack]
    exact .refl _
  | @str bs u hp hk hpack hc =>
    refine ⟨true, hp, ?_⟩
    rw [serItems_single]
    simp only [dynSerPart, if_true, dynSerField, hc, hk]
    rw [dynSerScalar_eq C cache (srec := srec) hk hpack]
    exact .refl _
  | @packed vs sc hp hk hs hpack hrep hc =>
    refine ⟨true, hp, ?_⟩
    rw [serItems_single]
    simp only [dynSerPart, if_true, dynSerField, hc, hk, hpack, serItem]
    have e : f.tagPiece = tagPiece f.number wtLen := by
      simp only [DynField.tagPiece, DynField.serializedTag, DynField.tagWire, hpack, tagPiece, if_true]
    have e2 : (vs.map Val.num).flatMap (scalarPieces sc) = vs.flatMap fun v => scalarPieces sc (.num v) := by
      rw [List.flatMap_map]
    cases sc.cached with
    | true =>
      simp only [if_true]
      cases cache[pos]? with
      | none => exact .refl _
      | some len =>
        simp only
        rw [e, e2]
        exact .refl _
    | false =>
      simp only [Bool.false_eq_true, if_false]
      refine ⟨rfl, fun _ => ?_⟩
      have := rawPacked_bytes sc (vs.map .num)
      rw [e2] at this
      simp only [piecesBytes, List.flatMap_cons, List.flatMap_nil, List.append_nil] at this ⊢
      rw [this, e, List.length_map]
  | @nums vs sc hp hk hs hpack hc =>
    refine ⟨true, hp, ?_⟩
    simp only [dynSerPart, if_true, dynSerField, hc, hk, hpack, Bool.false_eq_true, if_false]
    have := serAll_same (C := C) (cache := cache) (rec := srec) (mk := fun v => .one f.number (.scalar sc) (.num v))
      (one := fun v => dynSerScalar C.utf8 f sc (.num v)) vs (vs.map fun x => x) pos (by simp) fun p hp pos => by
        rw [zip_self_map _ _ p hp, dynSerScalar_eq C cache (srec := srec) hk hpack]
        exact .refl _
    simpa using this
  | @strs vs u hp hk hpack hc =>
    refine ⟨true, hp, ?_⟩
    simp only [dynSerPart, if_true, dynSerField, hc, hk]
    have := serAll_same (C := C) (cache := cache) (rec := srec)
      (mk := fun v => .one f.number (.scalar (.str u)) (.bytes v))
      (one := fun v => dynSerScalar C.utf8 f (.str u) (.bytes v)) vs (vs.map fun x => x) pos (by simp)
      fun p hp pos => by
        rw [zip_self_map _ _ p hp, dynSerScalar_eq C cache (srec := srec) hk hpack]
        exact .refl _
    simpa using this
  | @msg s N id hp hk hc hr =>
    refine ⟨true, hp, ?_⟩
    have ho := dynSerOne_same C cache hrec (f := f) hr pos
    rw [serItems_single]
    simp only [dynSerPart, if_true, dynSerField, hc]
    cases hkk : f.kind with
    | scalar sc => rw [hkk] at hk; cases hk
    | msg id' => rw [hkk] at hk; cases hk; exact ho.1
    | group id' => rw [hkk] at hk; cases hk; exact ho.2
  | @msgs ss Ns id hp hk hc hl hr =>
    refine ⟨true, hp, ?_⟩
    simp only [dynSerPart, if_true, dynSerField, hc]
    cases hkk : f.kind with
    | scalar sc => rw [hkk] at hk; cases hk
    | msg id' =>
      rw [hkk] at hk; cases hk
      exact serAll_same ss Ns pos hl fun p hp pos => (dynSerOne_same C cache hrec (f := f) (hr p hp) pos).1
    | group id' =>
      rw [hkk] at hk; cases hk
      exact serAll_same ss Ns pos hl fun p hp pos => (dynSerOne_same C cache hrec (f := f) (hr p hp) pos).2

theorem dynSerFields_cons {utf8 : List Byte → Bool} {drec : Nat → DynMsg → Nat → SerOut} {f : DynField} {p : Bool}
    (hp : f.present m = .ok p) (fs : List DynField) (pos : Nat) :
    dynSerFields utf8 cache drec m (f :: fs) pos =
      (dynSerPart utf8 cache drec f m p pos).andThen (dynSerFields utf8 cache drec m fs) := by
  cases p with
  | true => simp only [dynSerFields, hp, dynSerPart, if_true]
  | false => simp [dynSerFields, hp, dynSerPart, SerOut.andThen]

theorem dynSerFields_same {drec : Nat → DynMsg → Nat → SerOut} {srec : Nat → Msg → Nat → SerOut}
    (hrec : ∀ id s N, rel id s N → ∀ pos, SerSame (srec id N pos) (drec id s pos)) {fs : List DynField}
    {its : List Item} (h : FieldsItems rel m fs its) : ∀ (pos : Nat),
    SerSame (serItems C cache srec its pos) (dynSerFields C.utf8 cache drec m fs pos) := by
  induction h with
  | nil => exact fun _ => .refl _
  | cons hf _ ih =>
    intro pos
    obtain ⟨p, hp, hs⟩ := dynSerField_same C cache hrec hf pos
    rw [dynSerFields_cons cache hp, serItems_append]
    exact hs.andThen ih

end

theorem dynSer_same {T : DynTypes} (hT : ∀ id, (T id).Ok) (hP : ∀ id, (T id).Pooled) (utf8 : List Byte → Bool)
    (cache : List Nat) : ∀ (d id : Nat) (m : DynMsg) (M : Msg), DynHolds T True id m M → ∀ pos,
    SerSame (serMsg (T.cfg utf8) cache d id M pos) (dynSer T utf8 cache d id m pos)
  | 0, _, _, _, _, _ => .refl _
  | d + 1, id, m, M, h, pos => by
    obtain ⟨hu, hi⟩ := holds_items hT hP (utf8 := utf8) h
    have := dynSerFields_same (T.cfg utf8) cache (rel := DynHolds T True) (m := m)
      (fun id s N h pos => dynSer_same hT hP utf8 cache d id s N h pos) hi pos
    simp only [serMsg, dynSer, hu, List.map_nil]
    have e : ∀ a : SerOut, a.andThen (fun pos => ([], .ok pos)) = a := by
      rintro ⟨p, s⟩
      cases s <;> simp [SerOut.andThen]
    rw [e]
    exact this

/-! ## A failed write hands out no more than a successful one -/

/-- The run `a` is the run `b`, or failed after handing out no more bytes, if `b` succeeds. -/
def SerLe (a b : SerOut) : Prop :=
  ∀ pos, b.2 = .ok pos → a = b ∨ (a.2 = .fail ∧ (piecesBytes a.1).length ≤ (piecesBytes b.1).length)

theorem SerLe.refl (a : SerOut) : SerLe a a := fun _ _ => Or.inl rfl

theorem SerLe.andThen {a b : SerOut} {f g : Nat → SerOut} (h : SerLe a b) (hf : ∀ pos, SerLe (f pos) (g pos)) :
    SerLe (a.andThen f) (b.andThen g) := by
  intro pos hpos
  obtain ⟨pb, sb⟩ := b
  cases sb with
  | ok p =>
    rcases h p rfl with rfl | ⟨h1, h2⟩
    · simp only [SerOut.andThen] at hpos ⊢
      rcases hf p pos hpos with e | ⟨h1, h2⟩
      · exact Or.inl (by rw [e])
      · refine Or.inr ⟨h1, ?_⟩
        simp only [piecesBytes_append, List.length_append]
        omega
    · obtain ⟨pa, sa⟩ := a
      simp only at h1 h2
      subst h1
      refine Or.inr ⟨rfl, ?_⟩
      simp only [SerOut.andThen, piecesBytes_append, List.length_append]
      omega
  | fail => cases hpos
  | ub => cases hpos

theorem SerLe.close {a b : SerOut} (h : SerLe a b) (p : Piece) : SerLe (a.close p) (b.close p) := by
  intro pos hpos
  obtain ⟨pb, sb⟩ := b
  cases sb with
  | ok q =>
    rcases h q rfl with rfl | ⟨h1, h2⟩
    · exact Or.inl rfl
    · obtain ⟨pa, sa⟩ := a
      simp only at h1 h2
      subst h1
      refine Or.inr ⟨rfl, ?_⟩
      simp only [SerOut.close, piecesBytes_append, List.length_append]
      omega
  | fail => cases hpos
  | ub => cases hpos

theorem serAll_le {α} {one one' : α → Nat → SerOut} (h : ∀ x pos, SerLe (one x pos) (one' x pos)) :
    ∀ (xs : List α) (pos : Nat), SerLe (serAll one xs pos) (serAll one' xs pos)
  | [], _ => .refl _
  | x :: xs, pos => (h x pos).andThen fun pos => serAll_le h xs pos

/-- The validator that accepts everything. -/
abbrev acceptAll : List Byte → Bool := fun _ => true

theorem dynSerScalar_le (utf8 : List Byte → Bool) (f : DynField) (sc : Scalar) (v : Val) (pos : Nat) :
    SerLe (dynSerScalar utf8 f sc v pos) (dynSerScalar acceptAll f sc v pos) := by
  have e : dynSerScalar acceptAll f sc v pos = (f.tagPiece :: scalarPieces sc v, .ok pos) := by
    unfold dynSerScalar
    rw [if_neg]
    cases sc with
    | str u => cases u <;> simp
    | _ => simp
  have e' : dynSerScalar utf8 f sc v pos = ([], .fail) ∨
      dynSerScalar utf8 f sc v pos = (f.tagPiece :: scalarPieces sc v, .ok pos) := by
    unfold dynSerScalar
    have key : ∀ (c : Prop) [Decidable c] (x y : SerOut), (if c then x else y) = x ∨ (if c then x else y) = y :=
      fun c _ x y => if h : c then Or.inl (if_pos h) else Or.inr (if_neg h)
    exact key _ _ _
  rw [e]
  rcases e' with e' | e' <;> rw [e']
  · exact fun _ _ => Or.inr ⟨rfl, by simp [piecesBytes]⟩
  · exact .refl _

theorem dynSerOne_le {cache : List Nat} {rec rec' : DynMsg → Nat → SerOut}
    (h : ∀ s pos, SerLe (rec s pos) (rec' s pos)) (f : DynField) (dl : Bool) (s : DynMsg) (pos : Nat) :
    SerLe (dynSerOne cache rec f dl s pos) (dynSerOne cache rec' f dl s pos) := by
  unfold dynSerOne
  cases dl with
  | true =>
    simp only [if_true]
    exact (SerLe.refl _).andThen fun pos => (h s pos).close _
  | false =>
    simp only [Bool.false_eq_true, if_false]
    cases cache[pos]? with
    | none => exact .refl _
    | some len => exact (SerLe.refl _).andThen fun pos => h s pos

theorem dynSerField_le {utf8 : List Byte → Bool} {cache : List Nat} {rec rec' : Nat → DynMsg → Nat → SerOut}
    (h : ∀ id s pos, SerLe (rec id s pos) (rec' id s pos)) (f : DynField) (m : DynMsg) (pos : Nat) :
    SerLe (dynSerField utf8 cache rec f m pos) (dynSerField acceptAll cache rec' f m pos) := by
  unfold dynSerField
  split
  · exact dynSerScalar_le _ _ _ _ _
  · exact dynSerScalar_le _ _ _ _ _
  · split
    · exact .refl _
    · exact serAll_le (fun _ _ => dynSerScalar_le _ _ _ _ _) _ _
  · exact serAll_le (fun _ _ => dynSerScalar_le _ _ _ _ _) _ _
  · exact dynSerOne_le (h _) _ _ _ _
  · exact dynSerOne_le (h _) _ _ _ _
  · exact serAll_le (fun _ _ => dynSerOne_le (h _) _ _ _ _) _ _
  · exact serAll_le (fun _ _ => dynSerOne_le (h _) _ _ _ _) _ _
  · exact .refl _

theorem dynSerFields_le {utf8 : List Byte → Bool} {cache : List Nat} {rec rec' : Nat → DynMsg → Nat → SerOut}
    (h : ∀ id s pos, SerLe (rec id s pos) (rec' id s pos)) (m : DynMsg) : ∀ (fs : List DynField) (pos : Nat),
    SerLe (dynSerFields utf8 cache rec m fs pos) (dynSerFields acceptAll cache rec' m fs pos)
  | [], _ => .refl _
  | f :: fs, pos => by
    simp only [dynSerFields]
    split
    · exact (dynSerField_le h f m pos).andThen fun pos => dynSerFields_le h m fs pos
    · exact dynSerFields_le h m fs pos
    · exact .refl _

theorem dynSer_le (T : DynTypes) (utf8 : List Byte → Bool) (cache : List Nat) :
    ∀ (d id : Nat) (m : DynMsg) (pos : Nat), SerLe (dynSer T utf8 cache d id m pos) (dynSer T acceptAll cache d id m pos)
  | 0, _, _, _ => .refl _
  | d + 1, id, m, pos => dynSerFields_le (fun id s pos => dynSer_le T utf8 cache d id s pos) m _ pos

end HppProto

namespace HppProto

/-! ## What does not depend on the validator -/

section
variable (T : DynTypes) (u u' : List Byte → Bool)

theorem enc_utf8 : ∀ d, enc (T.cfg u) d = enc (T.cfg u') d
  | 0 => rfl
  | d + 1 => by
    funext id M
    have ih := enc_utf8 d
    simp only [enc] at ih ⊢
    simp only [Spec.encode, ih]
    rfl

theorem nests_utf8 : ∀ d, Spec.nests (T.cfg u) d = Spec.nests (T.cfg u') d
  | 0 => rfl
  | d + 1 => by
    funext id M
    have ih := nests_utf8 d
    simp only [Spec.nests, ih]
    rfl

theorem utf8Ok_acceptAll : ∀ d id M, Spec.utf8Ok (T.cfg acceptAll) isDefault d id M
  | 0, _, _ => trivial
  | d + 1, id, M => fun p _ e _ k _ _ => ⟨fun _ => rfl, by
      unfold Spec.valNests
      split
      · trivial
      all_goals exact utf8Ok_acceptAll d _ _⟩

end

theorem pokePieces_bytes {ps qs : List Piece} (h : piecesBytes ps = piecesBytes qs) (b : List Byte) :
    pokePieces ps b 0 = pokePieces qs b 0 := by
  by_cases hl : (piecesBytes ps).length ≤ b.length
  · have := pokePieces_ok ps b [] (b.take (piecesBytes ps).length) (b.drop (piecesBytes ps).length)
      (by simp) (by rw [List.length_take]; omega)
    have h2 := pokePieces_ok qs b [] (b.take (piecesBytes qs).length) (b.drop (piecesBytes qs).length)
      (by simp) (by rw [List.length_take, ← h]; omega)
    simp only [List.length_nil, List.nil_append] at this h2
    rw [this, h2, h]
  · rw [pokePieces_overrun ps b 0 (by omega) (by omega), pokePieces_overrun qs b 0 (by omega) (by rw [← h]; omega)]

theorem pokePieces_fits {ps : List Piece} {b : List Byte} (hl : (piecesBytes ps).length ≤ b.length) :
    ∃ b', pokePieces ps b 0 = some b' := by
  have := pokePieces_ok ps b [] (b.take (piecesBytes ps).length) (b.drop (piecesBytes ps).length)
    (by simp) (by rw [List.length_take]; omega)
  simp only [List.length_nil, List.nil_append] at this
  exact ⟨_, this⟩

theorem resizeBuffer_fits {g : Bool} {buf b : List Byte} {n : Nat} (h : resizeBuffer true g buf n = .ok b) :
    n ≤ b.length := by
  unfold resizeBuffer at h
  simp only [if_true] at h
  split at h
  · cases h
  · cases g with
    | true =>
      simp only [if_true, Nat.zero_add, Res.ok.injEq] at h
      rw [← h, resizeTo_length]
      exact Nat.le_refl _
    | false =>
      simp only [Bool.false_eq_true, if_false, Nat.zero_add] at h
      split at h
      · cases h
      · next h' => cases h; omega

end HppProto
