import Verif.Proofs.WireItems
/-! Lemmas about the three passes of the writer. -/
namespace HppProto

variable (C : Cfg)

/-- Cache entries of an item, in the order in which they are reserved. -/
def cacheItem (enc : Nat → Msg → List Byte) (rec : Nat → Msg → List Nat) : Item → List Nat
  | .one _ (.scalar _) _ => []
  | .one _ (.msg id) v =>
    let m := v.asMsg (C.schema id).default
    saturate (enc id m).length :: rec id m
  | .one _ (.group id) v => rec id (v.asMsg (C.schema id).default)
  | .packed _ sc vs => if sc.cached then [saturate (vs.flatMap (Spec.scalar sc)).length] else []

abbrev enc (d : Nat) := Spec.encode C isDefault d

/-- Cache contents for a message: the saturated sizes in pre-order. -/
def cacheMsg : (d : Nat) → (id : Nat) → Msg → List Nat
  | 0, _, _ => []
  | d + 1, id, m => (msgItems (C.schema id) m).flatMap (cacheItem C (enc C d) (cacheMsg d))

/-! ### counting -/

theorem countItems_len (d : Nat) (ih : ∀ id m, Spec.nests C d id m → countMsg C d id m = ((cacheMsg C d id m).length, false)) :
    ∀ its : List Item, (∀ it ∈ its, it.nests C (Spec.nests C d)) →
      countItems C (countMsg C d) its = ((its.flatMap (cacheItem C (enc C d) (cacheMsg C d))).length, false) := by
  intro its
  induction its with
  | nil => intro _; rfl
  | cons it its ih' =>
    intro h
    rw [countItems, ih' (fun x hx => h x (by simp [hx]))]
    have h0 := h it (by simp)
    have : countItem C (countMsg C d) it = ((cacheItem C (enc C d) (cacheMsg C d) it).length, false) := by
      cases it with
      | packed n sc vs => simp only [countItem, cacheItem]; split <;> rfl
      | one n k v =>
        cases k with
        | scalar sc => rfl
        | msg id => simp only [countItem, cacheItem]; rw [ih _ _ h0]; simp
        | group id => simp only [countItem, cacheItem]; rw [ih _ _ h0]
    rw [this]; simp

theorem count_nests (d : Nat) : ∀ id m, Spec.nests C d id m →
    countMsg C d id m = ((cacheMsg C d id m).length, false) := by
  induction d with
  | zero => intro id m h; exact h.elim
  | succ d ih =>
    intro id m h
    rw [countMsg, cacheMsg]
    exact countItems_len C d ih _ ((nests_items C d id m).1 h)

theorem countItems_flag (rec : Nat → Msg → Nat × Bool) (its : List Item) :
    (countItems C rec its).2 = its.any (fun it => (countItem C rec it).2) := by
  induction its with
  | nil => rfl
  | cons it its ih => simp [countItems, ih]

theorem count_flag (d : Nat) : ∀ id m, (countMsg C d id m).2 = false ↔ Spec.nests C d id m := by
  induction d with
  | zero => intro id m; simp [countMsg, Spec.nests]
  | succ d ih =>
    intro id m
    rw [countMsg, countItems_flag, nests_items, List.any_eq_false]
    constructor
    · intro h it hit
      have := h it hit
      cases it with
      | packed n sc vs => trivial
      | one n k v =>
        cases k with
        | scalar sc => trivial
        | msg i => exact (ih _ _).1 (by simpa [countItem] using this)
        | group i => exact (ih _ _).1 (by simpa [countItem] using this)
    · intro h it hit
      have := h it hit
      cases it with
      | packed n sc vs => simp [countItem]
      | one n k v =>
        cases k with
        | scalar sc => simp [countItem]
        | msg i => simpa [countItem] using (ih _ _).2 this
        | group i => simpa [countItem] using (ih _ _).2 this

/-! ### sizes -/

theorem scalarSize_eq (sc : Scalar) (v : Val) (h : (Spec.scalar sc v).length < 2 ^ 64) :
    scalarSize sc v = (Spec.scalar sc v).length := by
  cases sc with
  | varint ty =>
    simp only [scalarSize, VarTy.encodeSize, Spec.scalar, leb_eq, varintNumber_eq]
    exact varintSize_eq (encodeBits_lt ty _) (by cases ty <;> decide)
  | bool => rfl
  | enum c =>
    simp only [scalarSize, Spec.scalar, leb_eq]
    exact varintSize_eq v.bits.isLt (by decide)
  | fixed32 f => simp [scalarSize, Spec.scalar, littleEndian_eq, leBytes_length]
  | fixed64 f => simp [scalarSize, Spec.scalar, littleEndian_eq, leBytes_length]
  | str u =>
    simp only [scalarSize, Spec.scalar, lenSize, leb_eq, List.length_append] at h ⊢
    rw [varintSize_eq (by omega) (by decide), u64, Nat.mod_eq_of_lt (by omega)]

theorem sum64_foldl (l : List Nat) : ∀ a, a + l.sum < 2 ^ 64 →
    l.foldl (fun acc x => u64 (acc + x)) a = a + l.sum := by
  induction l with
  | nil => intro a _; rfl
  | cons x l ih =>
    intro a h
    simp only [List.sum_cons] at h
    rw [List.foldl_cons, u64, Nat.mod_eq_of_lt (by omega), ih _ (by omega), List.sum_cons]
    omega

theorem sum64_eq {l : List Nat} (h : l.sum < 2 ^ 64) : sum64 l = l.sum := by
  rw [sum64, sum64_foldl l 0 (by omega)]; omega

theorem length_flatMap' {α β} (f : α → List β) (l : List α) :
    (l.flatMap f).length = (l.map (fun x => (f x).length)).sum := by
  simp [List.length_flatMap]

theorem map_scalarSize (sc : Scalar) (vs : List Val) (h : (vs.flatMap (Spec.scalar sc)).length < 2 ^ 64) :
    (vs.map (scalarSize sc)).sum = (vs.flatMap (Spec.scalar sc)).length := by
  induction vs with
  | nil => rfl
  | cons v vs ih =>
    simp only [List.flatMap_cons, List.length_append, List.map_cons, List.sum_cons] at h ⊢
    rw [scalarSize_eq sc v (by omega), ih (by omega)]

theorem rawSize_scalar {sc : Scalar} (hp : sc.packable = true) (hc : sc.cached = false) (v : Val) :
    (Spec.scalar sc v).length = sc.rawSize := by
  cases sc <;> simp_all [Scalar.packable, Scalar.cached, Spec.scalar, Scalar.rawSize, littleEndian_eq, leBytes_length]

theorem rawSize_flatMap {sc : Scalar} (hp : sc.packable = true) (hc : sc.cached = false) (vs : List Val) :
    (vs.flatMap (Spec.scalar sc)).length = vs.length * sc.rawSize := by
  induction vs with
  | nil => simp
  | cons v vs ih =>
    rw [List.flatMap_cons, List.length_append, ih, rawSize_scalar hp hc]
    simp [Nat.add_mul, Nat.add_comm]

theorem lenSize_eq {n : Nat} (h : n + (Spec.leb n).length < 2 ^ 64) : lenSize n = (Spec.leb n).length + n := by
  rw [lenSize, leb_eq] at *
  rw [varintSize_eq (by omega) (by decide), u64, Nat.mod_eq_of_lt (by omega)]

theorem u64_eq {n : Nat} (h : n < 2 ^ 64) : u64 n = n := Nat.mod_eq_of_lt h

/-- What the size pass does on a message (or item), given enough cache. -/
def SizeOk (f : CacheSt → Res (Nat × CacheSt)) (len : Nat) (entries : List Nat) : Prop :=
  ∀ pre mid post : List Nat, mid.length = entries.length →
    f ⟨pre ++ mid ++ post, pre.length⟩ = .ok (len, ⟨pre ++ entries ++ post, pre.length + entries.length⟩)

theorem sizeItem_ok (d : Nat) (it : Item) (hN : it.number.toNat < 2 ^ 29) (hok : it.ok)
    (hnest : it.nests C (Spec.nests C d)) (hlen : (it.wire C (enc C d)).length < 2 ^ 64)
    (ih : ∀ id m, Spec.nests C d id m → (enc C d id m).length < 2 ^ 64 →
      SizeOk (sizeMsg C d id m) (enc C d id m).length (cacheMsg C d id m)) :
    SizeOk (sizeItem C (sizeMsg C d) it) (it.wire C (enc C d)).length (cacheItem C (enc C d) (cacheMsg C d) it) := by
  intro pre mid post hmid
  cases it with
  | packed n sc vs =>
    simp only [Item.wire, Spec.lenRecord, List.length_append] at hlen ⊢
    simp only [Item.number] at hN
    have ht := tagSize_eq (n := n) (w := 2) hN (by omega)
    simp only [sizeItem, cacheItem] at hmid ⊢
    cases hc : sc.cached with
    | true =>
      simp only [hc, if_true, List.length_singleton] at hmid ⊢
      obtain ⟨x, rfl⟩ := List.length_eq_one_iff.1 hmid
      have e := map_scalarSize sc vs (by omega)
      have e2 : sum64 (vs.map (scalarSize sc)) = (vs.flatMap (Spec.scalar sc)).length := by
        rw [sum64_eq (by omega), e]
      rw [e2, CacheSt.write, if_pos (by simp)]
      show Res.ok _ = Res.ok _
      rw [lenSize_eq (by omega), ht, u64_eq (by omega)]
      simp only [Res.ok.injEq, Prod.mk.injEq, CacheSt.mk.injEq, and_true]
      refine ⟨by omega, ?_⟩
      simp
    | false =>
      simp only [hc, if_false, List.length_nil, Bool.false_eq_true] at hmid ⊢
      have : mid = [] := List.length_eq_zero_iff.1 hmid
      subst this
      have e := rawSize_flatMap hok hc vs
      rw [u64_eq (n := vs.length * sc.rawSize) (by omega), ← e, lenSize_eq (by omega), ht, u64_eq (by omega)]
      simp only [Res.ok.injEq, Prod.mk.injEq, CacheSt.mk.injEq]
      refine ⟨by omega, ?_⟩
      simp
  | one n k v =>
    simp only [Item.number] at hN
    cases k with
    | scalar sc =>
      simp only [Item.wire, Spec.record, List.length_append] at hlen ⊢
      have ht := tagSize_eq (n := n) (w := Spec.wireTypeOf sc) hN (by cases sc <;> simp [Spec.wireTypeOf])
      simp only [cacheItem, List.length_nil] at hmid
      have : mid = [] := List.length_eq_zero_iff.1 hmid
      subst this
      simp only [sizeItem, cacheItem]
      rw [scalarSize_eq sc v (by omega), ht, u64_eq (by omega)]
      simp
    | msg id =>
      simp only [Item.wire, Spec.record, Spec.lenRecord, List.length_append] at hlen ⊢
      have ht := tagSize_eq (n := n) (w := 2) hN (by omega)
      simp only [cacheItem, List.length_cons] at hmid ⊢
      match mid, hmid with
      | x :: mid, hmid =>
        simp only [List.length_cons, Nat.add_right_cancel_iff] at hmid
        have key := ih id (v.asMsg (C.schema id).default) hnest (by omega) (pre ++ [x]) mid post hmid
        simp only [sizeItem]
        have e1 : pre ++ x :: mid ++ post = pre ++ [x] ++ mid ++ post := by simp
        have e2 : pre.length + 1 = (pre ++ [x]).length := by simp
        rw [e1, e2, key]
        show Res.bind (Res.ok _) _ = _
        simp only [Res.bind]
        rw [CacheSt.write, if_pos (by simp)]
        show Res.ok _ = Res.ok _
        rw [lenSize_eq (by omega), ht, u64_eq (by omega)]
        simp only [Res.ok.injEq, Prod.mk.injEq, CacheSt.mk.injEq]
        refine ⟨by omega, ?_, ?_⟩
        · simp
        · simp; omega
    | group id =>
      simp only [Item.wire, Spec.record, List.length_append] at hlen ⊢
      have ht := tagSize_eq (n := n) (w := 3) hN (by omega)
      have ht4 := tagSize_eq (n := n) (w := 4) hN (by omega)
      simp only [cacheItem] at hmid ⊢
      have key := ih id (v.asMsg (C.schema id).default) hnest (by omega) pre mid post hmid
      simp only [sizeItem]
      rw [key]
      show Res.ok _ = Res.ok _
      rw [u64_eq (by omega)]
      simp only [Res.ok.injEq, Prod.mk.injEq, and_true]
      omega

theorem sizeItems_ok (d : Nat) 
    (ih : ∀ id m, Spec.nests C d id m → (enc C d id m).length < 2 ^ 64 →
      SizeOk (sizeMsg C d id m) (enc C d id m).length (cacheMsg C d id m)) (its : List Item) :
    (∀ it ∈ its, it.number.toNat < 2 ^ 29) → (∀ it ∈ its, it.ok) → (∀ it ∈ its, it.nests C (Spec.nests C d)) →
    (its.flatMap (Item.wire C (enc C d))).length < 2 ^ 64 →
    SizeOk (sizeItems C (sizeMsg C d) its) (its.flatMap (Item.wire C (enc C d))).length
      (its.flatMap (cacheItem C (enc C d) (cacheMsg C d))) := by
  induction its with
  | nil =>
    intro _ _ _ _ pre mid post hmid
    have : mid = [] := List.length_eq_zero_iff.1 (by simpa using hmid)
    subst this
    simp [sizeItems]
  | cons it its ih' =>
    intro hN hO hn hlen pre mid post hmid
    simp only [List.flatMap_cons, List.length_append] at hlen hmid ⊢
    obtain ⟨m1, m2, rfl, h1, h2⟩ : ∃ m1 m2, mid = m1 ++ m2 ∧
        m1.length = (cacheItem C (enc C d) (cacheMsg C d) it).length ∧
        m2.length = (its.flatMap (cacheItem C (enc C d) (cacheMsg C d))).length :=
      ⟨mid.take (cacheItem C (enc C d) (cacheMsg C d) it).length, mid.drop (cacheItem C (enc C d) (cacheMsg C d) it).length,
        (List.take_append_drop _ _).symm, by rw [List.length_take]; omega, by rw [List.length_drop]; omega⟩
    have k1 := sizeItem_ok C d it (hN _ (by simp)) (hO _ (by simp)) (hn _ (by simp)) (by omega) ih
      pre m1 (m2 ++ post) h1
    have k2 := ih' (fun x hx => hN x (by simp [hx])) (fun x hx => hO x (by simp [hx]))
      (fun x hx => hn x (by simp [hx])) (by omega)
      (pre ++ cacheItem C (enc C d) (cacheMsg C d) it) m2 post h2
    rw [sizeItems]
    have e1 : pre ++ (m1 ++ m2) ++ post = pre ++ m1 ++ (m2 ++ post) := by simp
    rw [e1, k1]
    show Res.bind (Res.ok _) _ = _
    simp only [Res.bind]
    have e2 : pre ++ cacheItem C (enc C d) (cacheMsg C d) it ++ (m2 ++ post)
        = pre ++ cacheItem C (enc C d) (cacheMsg C d) it ++ m2 ++ post := by simp
    have e3 : pre.length + (cacheItem C (enc C d) (cacheMsg C d) it).length
      = (pre ++ cacheItem C (enc C d) (cacheMsg C d) it).length := by simp
    rw [e2, e3, k2]
    show Res.ok _ = Res.ok _
    rw [u64_eq (by omega)]
    simp [Nat.add_assoc]

theorem size_ok (hN : Spec.numbersOk C) (d : Nat) : ∀ id m, Spec.nests C d id m → (enc C d id m).length < 2 ^ 64 →
      SizeOk (sizeMsg C d id m) (enc C d id m).length (cacheMsg C d id m) := by
  induction d with
  | zero => intro id m h; exact h.elim
  | succ d ih =>
    intro id m h hlen pre mid post hmid
    have hE : enc C (d + 1) id m = (msgItems (C.schema id) m).flatMap (Item.wire C (enc C d)) ++ m.unk.flatMap Prod.snd :=
      encode_items C d id m
    rw [hE, List.length_append] at hlen ⊢
    rw [sizeMsg, sizeItems_ok C d ih _ (items_number hN) items_ok ((nests_items C d id m).1 h) (by omega)
      pre mid post hmid]
    show Res.ok _ = Res.ok _
    have e : sum64 (m.unk.map (fun u => u.2.length)) = (m.unk.flatMap Prod.snd).length := by
      rw [length_flatMap' Prod.snd] at hlen
      rw [length_flatMap' Prod.snd, sum64_eq (by omega)]
    rw [e, u64_eq (by omega)]
    rfl

/-! ### writing -/

theorem saturate_eq {s : Nat} (h : s < maxMessageSize) : saturate s = s := by
  rw [saturate, if_neg (by omega)]

/-- What the writing pass does: with a correct cache it either writes exactly `bytes` and
ends at the right cache position, or fails having written a prefix. -/
def SerOk (f : Nat → SerOut) (cache : List Nat) (bytes : List Byte) (entries : List Nat) (good : Prop) : Prop :=
  ∀ pre post : List Nat, cache = pre ++ entries ++ post →
    (good → ∃ ps, f pre.length = (ps, .ok (pre.length + entries.length)) ∧ piecesBytes ps = bytes) ∧
    (¬ good → ∃ ps, f pre.length = (ps, .fail) ∧ piecesBytes ps <+: bytes)

theorem piecesBytes_append (a b : List Piece) : piecesBytes (a ++ b) = piecesBytes a ++ piecesBytes b := by
  simp [piecesBytes]

theorem piecesBytes_cons (a : Piece) (b : List Piece) : piecesBytes (a :: b) = a.bytes ++ piecesBytes b := by
  simp [piecesBytes]

theorem piecesBytes_nil : piecesBytes [] = [] := rfl

theorem piecesBytes_flatMap (sc : Scalar) (vs : List Val) :
    piecesBytes (vs.flatMap (scalarPieces sc)) = vs.flatMap (Spec.scalar sc) := by
  induction vs with
  | nil => rfl
  | cons v vs ih => simp [piecesBytes_append, ih, scalar_bytes]

theorem rawPacked_eq (sc : Scalar) (vs : List Val) : rawPacked sc vs = vs.flatMap (Spec.scalar sc) := by
  rw [rawPacked]; congr 1; funext v; exact (scalar_bytes sc v).symm

theorem serItem_ok (d : Nat) (cache : List Nat) (it : Item) (hN : it.number.toNat < 2 ^ 29) (hok : it.ok)
    (hnest : it.nests C (Spec.nests C d)) (hlen : (it.wire C (enc C d)).length < maxMessageSize)
    (ih : ∀ id m, Spec.nests C d id m → (enc C d id m).length < maxMessageSize →
      SerOk (serMsg C cache d id m) cache (enc C d id m) (cacheMsg C d id m) (Spec.utf8Ok C isDefault d id m)) :
    SerOk (serItem C cache (serMsg C cache d) it) cache (it.wire C (enc C d))
      (cacheItem C (enc C d) (cacheMsg C d) it) (it.utf8 C (Spec.utf8Ok C isDefault d)) := by
  intro pre post hcache
  have hmax : maxMessageSize < 2 ^ 64 := by decide
  cases it with
  | packed n sc vs =>
    simp only [Item.number] at hN
    simp only [Item.wire, Spec.lenRecord, List.length_append] at hlen ⊢
    refine ⟨fun _ => ?_, fun h => absurd trivial h⟩
    simp only [cacheItem] at hcache ⊢
    cases hc : sc.cached with
    | true =>
      simp only [hc, if_true] at hcache ⊢
      rw [saturate_eq (by omega)] at hcache ⊢
      have hget : cache[pre.length]? = some (vs.flatMap (Spec.scalar sc)).length := by
        rw [hcache]; simp
      refine ⟨_, by simp only [serItem, hc, if_true, hget]; rfl, ?_⟩
      rw [piecesBytes_cons, piecesBytes_cons, piecesBytes_flatMap,
        ← tag_bytes (w := 2) (n := n) (wt := wtLen) hN rfl (by omega), leb_eq]
      simp [Piece.bytes]
    | false =>
      refine ⟨_, by simp only [serItem, hc]; rfl, ?_⟩
      have e := rawSize_flatMap hok hc vs
      rw [piecesBytes_cons, piecesBytes_cons, piecesBytes_cons, piecesBytes_nil, 
        ← tag_bytes (w := 2) (n := n) (wt := wtLen) hN rfl (by omega), ← e, u64_eq (by omega), leb_eq]
      simp [Piece.bytes, rawPacked_eq]
  | one n k v =>
    simp only [Item.number] at hN
    cases k with
    | scalar sc =>
      simp only [Item.wire, Spec.record, cacheItem, Item.utf8]
      constructor
      · rintro ⟨hu, -⟩
        have : utf8Fails C sc v = false := by
          cases sc with
          | str u =>
            cases u with
            | true => simp [utf8Fails, hu rfl]
            | false => rfl
          | _ => rfl
        refine ⟨_, by simp only [serItem, this]; rfl, ?_⟩
        rw [piecesBytes_cons, ← scalar_bytes,
          ← tag_bytes hN (wireType_toNat sc) (by cases sc <;> simp [Spec.wireTypeOf])]
      · intro hu
        have hs : sc = .str true ∧ C.utf8 v.str = false := by
          refine Classical.byContradiction fun hh => hu ⟨?_, trivial⟩
          intro hk
          injection hk with hk
          subst hk
          simpa using hh
        obtain ⟨rfl, hv⟩ := hs
        exact ⟨[], by simp [serItem, utf8Fails, hv], by simp [piecesBytes]⟩
    | msg id =>
      simp only [Item.wire, Spec.record, Spec.lenRecord, List.length_append] at hlen ⊢
      simp only [cacheItem] at hcache ⊢
      rw [saturate_eq (by omega)] at hcache
      have hget : cache[pre.length]? = some (enc C d id (v.asMsg (C.schema id).default)).length := by
        rw [hcache]; simp
      have key := ih id (v.asMsg (C.schema id).default) hnest (by omega)
        (pre ++ [(enc C d id (v.asMsg (C.schema id).default)).length]) post (by rw [hcache]; simp)
      have e2 : pre.length + 1 = (pre ++ [(enc C d id (v.asMsg (C.schema id).default)).length]).length := by simp
      have hgood : Item.utf8 C (Spec.utf8Ok C isDefault d) (.one n (.msg id) v) ↔
          Spec.utf8Ok C isDefault d id (v.asMsg (C.schema id).default) := by
        simp [Item.utf8, Spec.valNests]
      rw [hgood]
      have ht := tag_bytes (w := 2) (n := n) (wt := wtLen) hN rfl (by omega)
      constructor
      · intro hg
        obtain ⟨ps, h1, h2⟩ := key.1 hg
        refine ⟨[tagPiece n wtLen, .varint (enc C d id (v.asMsg (C.schema id).default)).length] ++ ps, ?_, ?_⟩
        · simp only [serItem, hget, SerOut.andThen]
          rw [e2, h1]; simp; omega
        · rw [piecesBytes_append, h2, piecesBytes_cons, piecesBytes_cons, piecesBytes_nil, ← ht, leb_eq]
          simp [Piece.bytes]
      · intro hg
        obtain ⟨ps, h1, h2⟩ := key.2 hg
        refine ⟨[tagPiece n wtLen, .varint (enc C d id (v.asMsg (C.schema id).default)).length] ++ ps, ?_, ?_⟩
        · simp only [serItem, hget, SerOut.andThen]
          rw [e2, h1]
        · rw [piecesBytes_append, piecesBytes_cons, piecesBytes_cons, piecesBytes_nil, ← ht, leb_eq]
          simp only [Piece.bytes, List.append_nil, List.append_assoc]
          rw [List.prefix_append_right_inj, List.prefix_append_right_inj]
          exact h2
    | group id =>
      simp only [Item.wire, Spec.record, List.length_append] at hlen ⊢
      simp only [cacheItem] at hcache ⊢
      have key := ih id (v.asMsg (C.schema id).default) hnest (by omega) pre post hcache
      have hgood : Item.utf8 C (Spec.utf8Ok C isDefault d) (.one n (.group id) v) ↔
          Spec.utf8Ok C isDefault d id (v.asMsg (C.schema id).default) := by
        simp [Item.utf8, Spec.valNests]
      rw [hgood]
      have ht := tag_bytes (w := 3) (n := n) (wt := wtSGroup) hN rfl (by omega)
      have ht4 := tag_bytes (w := 4) (n := n) (wt := wtEGroup) hN rfl (by omega)
      constructor
      · intro hg
        obtain ⟨ps, h1, h2⟩ := key.1 hg
        refine ⟨[tagPiece n wtSGroup] ++ (ps ++ [tagPiece n wtEGroup]), ?_, ?_⟩
        · simp only [serItem, SerOut.andThen]
          rw [h1]
        · rw [piecesBytes_append, piecesBytes_append, h2, piecesBytes_cons, piecesBytes_cons, piecesBytes_nil, ← ht, ← ht4]
          simp
      · intro hg
        obtain ⟨ps, h1, h2⟩ := key.2 hg
        refine ⟨[tagPiece n wtSGroup] ++ ps, ?_, ?_⟩
        · simp only [serItem, SerOut.andThen]
          rw [h1]
        · rw [piecesBytes_append, piecesBytes_cons, piecesBytes_nil, ← ht]
          simp only [List.append_nil, List.append_assoc]
          rw [List.prefix_append_right_inj]
          exact h2.trans (List.prefix_append _ _)

theorem serItems_ok (d : Nat) (cache : List Nat)
    (ih : ∀ id m, Spec.nests C d id m → (enc C d id m).length < maxMessageSize →
      SerOk (serMsg C cache d id m) cache (enc C d id m) (cacheMsg C d id m) (Spec.utf8Ok C isDefault d id m)) 
    (its : List Item) :
    (∀ it ∈ its, it.number.toNat < 2 ^ 29) → (∀ it ∈ its, it.ok) → (∀ it ∈ its, it.nests C (Spec.nests C d)) →
    (its.flatMap (Item.wire C (enc C d))).length < maxMessageSize →
    SerOk (serItems C cache (serMsg C cache d) its) cache (its.flatMap (Item.wire C (enc C d)))
      (its.flatMap (cacheItem C (enc C d) (cacheMsg C d))) (∀ it ∈ its, it.utf8 C (Spec.utf8Ok C isDefault d)) := by
  induction its with
  | nil =>
    intro _ _ _ _ pre post _
    exact ⟨fun _ => ⟨[], by simp [serItems], rfl⟩, fun h => absurd (by simp) h⟩
  | cons it its ih' =>
    intro hN hO hn hlen pre post hcache
    simp only [List.flatMap_cons, List.length_append] at hlen hcache ⊢
    have k1 := serItem_ok C d cache it (hN _ (by simp)) (hO _ (by simp)) (hn _ (by simp)) (by omega) ih
      pre (its.flatMap (cacheItem C (enc C d) (cacheMsg C d)) ++ post) (by rw [hcache]; simp)
    have k2 := ih' (fun x hx => hN x (by simp [hx])) (fun x hx => hO x (by simp [hx]))
      (fun x hx => hn x (by simp [hx])) (by omega)
      (pre ++ cacheItem C (enc C d) (cacheMsg C d) it) post (by rw [hcache]; simp)
    have e3 : pre.length + (cacheItem C (enc C d) (cacheMsg C d) it).length
      = (pre ++ cacheItem C (enc C d) (cacheMsg C d) it).length := by simp
    constructor
    · intro hg
      obtain ⟨p1, a1, b1⟩ := k1.1 (hg _ (by simp))
      obtain ⟨p2, a2, b2⟩ := k2.1 (fun x hx => hg x (by simp [hx]))
      refine ⟨p1 ++ p2, ?_, by rw [piecesBytes_append, b1, b2]⟩
      simp only [serItems, SerOut.andThen, a1]
      rw [e3, a2]; simp [Nat.add_assoc]
    · intro hg
      by_cases hg1 : it.utf8 C (Spec.utf8Ok C isDefault d)
      · obtain ⟨p1, a1, b1⟩ := k1.1 hg1
        obtain ⟨p2, a2, b2⟩ := k2.2 (fun hh => hg (by
          intro x hx
          rcases List.mem_cons.1 hx with rfl | hx
          · exact hg1
          · exact hh x hx))
        refine ⟨p1 ++ p2, ?_, ?_⟩
        · simp only [serItems, SerOut.andThen, a1]
          rw [e3, a2]
        · rw [piecesBytes_append, b1, List.prefix_append_right_inj]; exact b2
      · obtain ⟨p1, a1, b1⟩ := k1.2 hg1
        refine ⟨p1, ?_, b1.trans (List.prefix_append _ _)⟩
        simp only [serItems, SerOut.andThen, a1]

theorem ser_ok (hN : Spec.numbersOk C) (cache : List Nat) (d : Nat) : ∀ id m, Spec.nests C d id m →
    (enc C d id m).length < maxMessageSize →
      SerOk (serMsg C cache d id m) cache (enc C d id m) (cacheMsg C d id m) (Spec.utf8Ok C isDefault d id m) := by
  induction d with
  | zero => intro id m h; exact h.elim
  | succ d ih =>
    intro id m h hlen pre post hcache
    have hE : enc C (d + 1) id m = (msgItems (C.schema id) m).flatMap (Item.wire C (enc C d)) ++ m.unk.flatMap Prod.snd :=
      encode_items C d id m
    rw [hE, List.length_append] at hlen
    rw [hE, utf8_items]
    have key := serItems_ok C d cache ih _ (items_number hN) items_ok ((nests_items C d id m).1 h) (by omega)
      pre post (by rw [hcache, cacheMsg])
    have hunk : piecesBytes (m.unk.map (fun u => Piece.raw u.2)) = m.unk.flatMap Prod.snd := by
      rw [piecesBytes, List.flatMap_map]; congr
    constructor
    · intro hg
      obtain ⟨ps, a, b⟩ := key.1 hg
      refine ⟨ps ++ m.unk.map (fun u => .raw u.2), ?_, ?_⟩
      · simp only [serMsg, SerOut.andThen, a]; rfl
      · rw [piecesBytes_append, b, hunk]
    · intro hg
      obtain ⟨ps, a, b⟩ := key.2 hg
      refine ⟨ps, ?_, b.trans (List.prefix_append _ _)⟩
      simp only [serMsg, SerOut.andThen, a]

/-! ### buffers -/

theorem pokePieces_ok (ps : List Piece) : ∀ (buf : List Byte) (pre : List Byte) (mid post : List Byte),
    buf = pre ++ mid ++ post → mid.length = (piecesBytes ps).length →
    pokePieces ps buf pre.length = some (pre ++ piecesBytes ps ++ post) := by
  induction ps with
  | nil =>
    intro buf pre mid post h hl
    have : mid = [] := List.length_eq_zero_iff.1 (by simpa [piecesBytes] using hl)
    subst this; simp [pokePieces, h, piecesBytes]
  | cons p ps ih =>
    intro buf pre mid post h hl
    rw [piecesBytes_cons, List.length_append] at hl
    have hmid : mid = mid.take p.bytes.length ++ mid.drop p.bytes.length := (List.take_append_drop _ _).symm
    rw [pokePieces, poke, if_pos (by rw [h]; simp; omega)]
    simp only
    have e : buf.take pre.length ++ p.bytes ++ buf.drop (pre.length + p.bytes.length)
        = (pre ++ p.bytes) ++ mid.drop p.bytes.length ++ post := by
      rw [h]
      simp only [List.append_assoc, List.take_left, List.drop_append, List.drop_eq_nil_of_le (show pre.length ≤ pre.length + p.bytes.length by omega), Nat.add_sub_cancel_left, List.nil_append]
      have : p.bytes.length - mid.length = 0 := by omega
      rw [this, List.drop_zero]
    rw [e]
    have e2 : pre.length + p.bytes.length = (pre ++ p.bytes).length := by simp
    rw [e2, ih _ (pre ++ p.bytes) (mid.drop p.bytes.length) post rfl (by simp; omega), piecesBytes_cons]
    simp

theorem resizeTo_length (n : Nat) (buf : List Byte) : (resizeTo n buf).length = n := by
  simp [resizeTo]; omega

end HppProto
