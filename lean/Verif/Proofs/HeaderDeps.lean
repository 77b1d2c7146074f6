import Verif.Proofs.HeaderNames

/-! # What the generator takes for dependencies -/

namespace HppProto.Gen
open HppProto Schema

theorem split_unique {α : Type} {c d p q p' q' : List α} {x y x' y' : α} (ne : x ≠ y) (ne' : x' ≠ y')
    (h1 : c ++ x :: p = d ++ x' :: p') (h2 : c ++ y :: q = d ++ y' :: q') : c = d ∧ x = x' ∧ y = y' := by
  induction c generalizing d with
  | nil =>
    cases d with
    | nil => simp at h1 h2; exact ⟨rfl, h1.1, h2.1⟩
    | cons a d => simp at h1 h2; exact absurd (h1.1.trans h2.1.symm) ne
  | cons a c ih =>
    cases d with
    | nil => simp at h1 h2; exact absurd (h1.1.symm.trans h2.1) ne'
    | cons b d =>
      simp at h1 h2
      obtain ⟨e1, e2, e3⟩ := ih h1.2 h2.2
      exact ⟨by rw [h1.1, e1], e2, e3⟩

namespace Schema
variable {P : Schema}

/-! ## Where messages are -/

theorem path_pkg (hP : P.Ok) : ∀ m, m < P.messages.length → ∃ r, r ≠ [] ∧ (P.msg m).path = P.package (P.msg m).file ++ r := by
  intro m
  induction m using Nat.strongRecOn with
  | ind m ih =>
    intro hm
    cases h : (P.msg m).parent with
    | none => obtain ⟨n, hn⟩ := hP.top m hm h; exact ⟨[n], by simp, hn⟩
    | some p =>
      obtain ⟨h1, h2, h3, n, hn⟩ := hP.inner m hm p h
      obtain ⟨r, hr, he⟩ := ih p h1 (by omega)
      exact ⟨r ++ [n], by simp, by rw [hn, he, h2, List.append_assoc]⟩

/-- Messages enclosing a message. -/
theorem enclosing (hP : P.Ok) : ∀ m, m < P.messages.length → ∀ r s, r ≠ [] →
    (P.msg m).path = P.package (P.msg m).file ++ r ++ s → ∃ x < P.messages.length,
      (P.msg x).path = P.package (P.msg m).file ++ r ∧ (P.msg x).file = (P.msg m).file := by
  intro m
  induction m using Nat.strongRecOn with
  | ind m ih =>
    intro hm r s hr he
    rcases List.eq_nil_or_concat s with rfl | ⟨s', n, rfl⟩
    · exact ⟨m, hm, by simpa using he, rfl⟩
    · cases h : (P.msg m).parent with
      | none =>
        obtain ⟨k, hk⟩ := hP.top m hm h
        have := congrArg List.length (hk.symm.trans he)
        simp at this
        have : r.length ≠ 0 := by simpa using hr
        omega
      | some p =>
        obtain ⟨h1, h2, h3, k, hk⟩ := hP.inner m hm p h
        have e : (P.msg p).path = P.package (P.msg m).file ++ r ++ s' := by
          have := hk.symm.trans he
          simp only [List.concat_eq_append, ← List.append_assoc] at this
          exact (List.append_inj' this rfl).1
        obtain ⟨x, hx, e1, e2⟩ := ih p h1 (by omega) r s' hr (by rw [h2]; exact e)
        exact ⟨x, hx, by rw [e1, h2], by rw [e2, h2]⟩

theorem sib_of_paths (hP : P.Ok) {x y : Nat} (hx : x < P.messages.length) (hy : y < P.messages.length)
    (hf : (P.msg x).file = (P.msg y).file) {c : List Name} {n k : Name} (ne : n ≠ k) (h1 : (P.msg x).path = c ++ [n])
    (h2 : (P.msg y).path = c ++ [k]) : P.Siblings x y := by
  refine ⟨hx, hy, ?_, ?_, hf⟩
  · rintro rfl
    rw [h1] at h2
    simp at h2
    exact ne h2
  · have up : ∀ {z w : Nat}, z < P.messages.length → w < P.messages.length → (P.msg z).file = (P.msg w).file →
        ∀ {n k : Name}, (P.msg z).path = c ++ [n] → (P.msg w).path = c ++ [k] → (P.msg z).parent = none →
        (P.msg w).parent = none := by
      intro z w hz hw hf n k hn hk h
      obtain ⟨a, ha⟩ := hP.top z hz h
      have ec : c = P.package (P.msg z).file := (List.append_inj' (hn.symm.trans ha) rfl).1
      cases h' : (P.msg w).parent with
      | none => rfl
      | some p =>
        obtain ⟨h1, h2, h3, b, hb⟩ := hP.inner w hw p h'
        have ep : c = (P.msg p).path := (List.append_inj' (hk.symm.trans hb) rfl).1
        obtain ⟨r, hr, he⟩ := path_pkg hP p (by omega)
        rw [← ep, ec, h2, hf] at he
        exact absurd (List.append_right_eq_self.mp he.symm) hr
    cases h : (P.msg x).parent with
    | none => rw [up hx hy hf h1 h2 h]
    | some p =>
      cases h' : (P.msg y).parent with
      | none => rw [up hy hx hf.symm h2 h1 h'] at h; cases h
      | some q =>
        obtain ⟨a1, a2, a3, a, ha⟩ := hP.inner x hx p h
        obtain ⟨b1, b2, b3, b, hb⟩ := hP.inner y hy q h'
        have ep : c = (P.msg p).path := (List.append_inj' (h1.symm.trans ha) rfl).1
        have eq : c = (P.msg q).path := (List.append_inj' (h2.symm.trans hb) rfl).1
        rw [hP.distinct p (by omega) q (by omega) (ep.symm.trans eq)]

theorem paths_of_sib (hP : P.Ok) {x y : Nat} (h : P.Siblings x y) : ∃ c n k, n ≠ k ∧ (P.msg x).path = c ++ [n] ∧
    (P.msg y).path = c ++ [k] := by
  obtain ⟨hx, hy, hne, hp, hf⟩ := h
  have : ∃ c n k, (P.msg x).path = c ++ [n] ∧ (P.msg y).path = c ++ [k] := by
    cases h : (P.msg x).parent with
    | none =>
      obtain ⟨n, hn⟩ := hP.top x hx h
      obtain ⟨k, hk⟩ := hP.top y hy (hp ▸ h)
      exact ⟨_, n, k, hn, by rw [hk, hf]⟩
    | some p =>
      obtain ⟨_, _, _, n, hn⟩ := hP.inner x hx p h
      obtain ⟨_, _, _, k, hk⟩ := hP.inner y hy p (hp ▸ h)
      exact ⟨_, n, k, hn, hk⟩
  obtain ⟨c, n, k, h1, h2⟩ := this
  refine ⟨c, n, k, ?_, h1, h2⟩
  rintro rfl
  exact hne (hP.distinct x hx y hy (h1.trans h2.symm))

/-- Siblings enclose different messages. -/
theorem sib_apart (hP : P.Ok) {x y : Nat} (h : P.Siblings x y) {q : List Name} (h1 : (P.msg x).path <+: q)
    (h2 : (P.msg y).path <+: q) : False := by
  obtain ⟨c, n, k, ne, e1, e2⟩ := paths_of_sib hP h
  rw [e1] at h1
  rw [e2] at h2
  obtain ⟨s, rfl⟩ := h1
  obtain ⟨t, ht⟩ := h2
  simp at ht
  exact ne ht.1.symm

theorem msg_mem {m : Nat} (h : m < P.messages.length) : P.messages[m]? = some (P.msg m) := by
  simp [msg, List.getD, h]

theorem find_some (hP : P.Ok) {q : List Name} (hq : ∀ n ∈ q, Part n) {x : Nat} :
    P.find (fullName q) = some x ↔ x < P.messages.length ∧ (P.msg x).path = q := by
  unfold find
  rw [List.findIdx?_eq_some_iff_getElem]
  constructor
  · rintro ⟨h, h1, h2⟩
    have e : P.messages[x] = P.msg x := by simp [msg, List.getD, h]
    refine ⟨h, ?_⟩
    rw [e] at h1
    exact fullName_inj (hP.parts x h) hq (by simpa using h1)
  · rintro ⟨h, rfl⟩
    refine ⟨h, ?_, ?_⟩
    · have e : P.messages[x] = P.msg x := by simp [msg, List.getD, h]
      rw [e]; simp
    · intro j hj
      have hj' : j < P.messages.length := by omega
      have e : P.messages[j] = P.msg j := by simp [msg, List.getD, hj']
      rw [e]
      intro hh
      have := fullName_inj (hP.parts j hj') hq (by simpa using hh)
      have := hP.distinct j hj' x h this
      omega

/-! ## One field -/

/-- The path of the type of a field. -/
def kindPath (P : Schema) : Kind → List Name
  | .scalar => []
  | .enum _ path => path
  | .message t => (P.msg t).path

/-- What precedes the enum in its name. -/
def scopePath (P : Schema) : Kind → List Name
  | .scalar => []
  | .enum _ path => if path.dropLast = [] then path else path.dropLast
  | .message t => (P.msg t).path

/-- A type the schema knows. -/
def TypeOk (P : Schema) : Kind → Prop
  | .scalar => False
  | .enum o path => path ≠ [] ∧ (∀ n ∈ path, Part n) ∧
    match o with
    | none => ∀ m < P.messages.length, ¬ (P.msg m).path <+: path
    | some o => o < P.messages.length ∧ (P.msg o).entry = false ∧ (P.msg o).hasEnums = true ∧
        ∃ n, path = (P.msg o).path ++ [n]
  | .message t => t < P.messages.length

theorem path_ne (hP : P.Ok) {m : Nat} (h : m < P.messages.length) : (P.msg m).path ≠ [] := by
  obtain ⟨r, hr, he⟩ := path_pkg hP m h
  rw [he]
  simp [hr]

theorem scope_parts (hP : P.Ok) {k : Kind} (hk : P.TypeOk k) : ∀ n ∈ P.scopePath k, Part n := by
  cases k with
  | scalar => exact hk.elim
  | enum o path =>
    intro n hn
    simp only [scopePath] at hn
    split at hn
    · exact hk.2.1 n hn
    · exact hk.2.1 n ((List.dropLast_sublist _).subset hn)
  | message t => exact hP.parts t hk

theorem typeIn_scope (hP : P.Ok) {k : Kind} (hk : P.TypeOk k) {y : Nat} (hy : y < P.messages.length) :
    P.TypeIn y k ↔ (P.msg y).path <+: P.scopePath k := by
  cases k with
  | scalar => exact hk.elim
  | message t => rfl
  | enum o path =>
    obtain ⟨h1, h2, h3⟩ := hk
    cases o with
    | none =>
      simp only [TypeIn, false_iff, scopePath]
      intro h
      apply h3 y hy
      split at h
      · exact h
      · exact h.trans (List.dropLast_prefix _)
    | some o =>
      obtain ⟨h4, _, _, n, rfl⟩ := h3
      have : ((P.msg o).path ++ [n]).dropLast = (P.msg o).path := by simp
      simp only [scopePath, this, if_neg (path_ne hP h4)]
      rfl

theorem scope_name {k : Kind} (hk : P.TypeOk k) :
    (if k.isEnum = true then upToLastDot (P.typeName k) else P.typeName k) =
      fullName (P.scopePath k) := by
  cases k with
  | scalar => exact hk.elim
  | message t => rfl
  | enum o path =>
    obtain ⟨h1, h2, h3⟩ := hk
    show upToLastDot (fullName path) = _
    rcases List.eq_nil_or_concat path with rfl | ⟨q, n, rfl⟩
    · exact absurd rfl h1
    · rw [List.concat_eq_append] at *
      simp only [scopePath, List.dropLast_concat]
      split
      · rename_i h
        subst h
        exact upToLastDot_part (h2 n (by simp))
      · rename_i h
        exact upToLastDot_inner h (h2 n (by simp))

theorem fullName_longer {c : List Name} {x : Name} (hx : Part x) : (fullName (c ++ [x])).length ≠ (fullName c).length := by
  by_cases h : c = []
  · subst h
    have := hx.1
    simp [fullName_cons, nameTail, fullName_nil]
    exact this
  · rw [fullName_inner h]
    simp

/-- What resolving a field with a type in a message (or in none) does. -/
theorem resolveType_spec (hP : P.Ok) (st : State) {q : List Name} (hq : ∀ n ∈ q, Part n) {i : Nat}
    (hk : P.TypeOk (P.field i).kind) :
    let st' := P.resolveType st (fullName q) i
    st'.fwd = st.fwd ∧ st'.usedBy = st.usedBy ∧
      (∀ x y, y ∈ st'.deps x ↔ y ∈ st.deps x ∨ (P.Siblings x y ∧ (P.msg x).path <+: q ∧ P.TypeIn y (P.field i).kind)) ∧
      (∀ j, j ≠ i → st'.recursive j = st.recursive j) ∧
      (∀ t, (P.field i).kind = .message t → (P.msg t).path <+: q → st'.recursive i = true) := by
  intro st'
  have hs := scope_parts hP hk
  have hn := scope_name hk
  have he : st' = P.resolveType st (fullName q) i := rfl
  clear_value st'
  unfold resolveType at he
  simp only [] at he
  rw [hn] at he
  generalize hT : P.scopePath (P.field i).kind = T at *
  have recp : ∀ t, (P.field i).kind = .message t → (P.msg t).path = T := by
    intro t ht; rw [ht] at hT; exact hT
  have typeIn : ∀ {y}, y < P.messages.length → (P.TypeIn y (P.field i).kind ↔ (P.msg y).path <+: T) := by
    intro y hy; rw [typeIn_scope hP hk hy, hT]
  rcases paths_cases q T with rfl | ⟨y, q', rfl⟩ | ⟨x, p', rfl⟩ | ⟨c, x, y, p', q', rfl, rfl, ne⟩
  · rw [shared_same, List.take_length, upToDot_all] at he
    simp only [true_or, if_true] at he
    subst he
    refine ⟨rfl, rfl, ?_, ?_, ?_⟩
    · intro x y
      constructor
      · exact .inl
      · rintro (h | ⟨h1, h2, h3⟩)
        · exact h
        · exact (sib_apart hP h1 h2 ((typeIn h1.2.1).mp h3)).elim
    · intro j hj; simp [put, hj]
    · intro t ht _
      simp [put, ht, Kind.isEnum]
  · have hpre : q <+: q ++ y :: q' := ⟨_, rfl⟩
    have hd : upToDot (fullName q) ((fullName q).length + 1) = fullName q := upToDot_all _
    rw [shared_right hq, List.take_length, hd] at he
    simp only [or_true, if_true] at he
    subst he
    refine ⟨rfl, rfl, ?_, ?_, ?_⟩
    · intro a b
      constructor
      · exact .inl
      · rintro (h | ⟨h1, h2, h3⟩)
        · exact h
        · exact (sib_apart hP h1 (h2.trans hpre) ((typeIn h1.2.1).mp h3)).elim
    · intro j hj; simp [put, hj]
    · intro t ht h
      rw [recp t ht] at h
      have := h.length_le
      simp at this
      omega
  · have hpre : T <+: T ++ x :: p' := ⟨_, rfl⟩
    have hc : (fullName (T ++ x :: p')).take (fullName T).length = fullName T := by
      by_cases h : T = []
      · subst h; simp [fullName_nil]
      · rw [fullName_inner h, List.take_left]
    have hd : upToDot (fullName T) ((fullName T).length + 1) = fullName T := upToDot_all _
    rw [shared_left hs, hc, hd] at he
    simp only [true_or, if_true] at he
    subst he
    refine ⟨rfl, rfl, ?_, ?_, ?_⟩
    · intro a b
      constructor
      · exact .inl
      · rintro (h | ⟨h1, h2, h3⟩)
        · exact h
        · exact (sib_apart hP h1 h2 (((typeIn h1.2.1).mp h3).trans hpre)).elim
    · intro j hj; simp [put, hj]
    · intro t ht _
      simp [put, ht, Kind.isEnum]
  · have pc : ∀ n ∈ c, Part n := fun n h => hq n (by simp [h])
    have px : Part x := hq x (by simp)
    have py : Part y := hs y (by simp)
    have hc : (fullName (c ++ x :: p')).take (fullName c).length = fullName c := by
      by_cases h : c = []
      · subst h; simp [fullName_nil]
      · rw [fullName_inner h, List.take_left]
    rw [shared_split pc px py ne, hc, upToDot_next px, upToDot_next py] at he
    rw [if_neg (by intro h; rcases h with h | h; exact fullName_longer py h; exact fullName_longer px h)] at he
    have key : ∀ a b, (P.Siblings a b ∧ (P.msg a).path <+: c ++ x :: p' ∧ P.TypeIn b (P.field i).kind) ↔
        (P.find (fullName (c ++ [x])) = some a ∧ P.find (fullName (c ++ [y])) = some b ∧
          (P.msg a).file = (P.msg b).file) := by
      intro a b
      rw [find_some hP (by intro n hn; simp at hn; rcases hn with h | rfl; exact pc n h; exact px),
        find_some hP (by intro n hn; simp at hn; rcases hn with h | rfl; exact pc n h; exact py)]
      constructor
      · rintro ⟨h1, h2, h3⟩
        obtain ⟨d, n, k, ne', e1, e2⟩ := paths_of_sib hP h1
        have h3 := (typeIn h1.2.1).mp h3
        rw [e1] at h2
        rw [e2] at h3
        obtain ⟨s, hs⟩ := h2
        obtain ⟨t, ht⟩ := h3
        simp only [List.append_assoc, List.singleton_append] at hs ht
        obtain ⟨rfl, rfl, rfl⟩ := split_unique ne' ne hs ht
        exact ⟨⟨h1.1, e1⟩, ⟨h1.2.1, e2⟩, h1.2.2.2.2⟩
      · rintro ⟨⟨h1, e1⟩, ⟨h2, e2⟩, hf⟩
        refine ⟨sib_of_paths hP h1 h2 hf ne e1 e2, ?_, ?_⟩
        · rw [e1]; exact ⟨p', by simp⟩
        · rw [typeIn h2, e2]; exact ⟨q', by simp⟩
    have notrec : ∀ t, (P.field i).kind = .message t → (P.msg t).path <+: c ++ x :: p' → False := by
      intro t ht h
      rw [recp t ht] at h
      obtain ⟨s, hs⟩ := h
      simp at hs
      exact ne hs.1.symm
    cases hx : P.find (fullName (c ++ [x])) with
    | none =>
      simp only [hx] at he
      subst he
      refine ⟨rfl, rfl, ?_, ?_, fun t ht h => (notrec t ht h).elim⟩
      · intro a b
        rw [key, hx]; simp
      · intro j hj; simp [put, hj]
    | some a =>
      cases hy : P.find (fullName (c ++ [y])) with
      | none =>
        simp only [hx, hy] at he
        subst he
        refine ⟨rfl, rfl, ?_, ?_, fun t ht h => (notrec t ht h).elim⟩
        · intro a b
          rw [key, hy]; simp
        · intro j hj; simp [put, hj]
      | some b =>
        simp only [hx, hy] at he
        by_cases hf : (P.msg a).file = (P.msg b).file
        · rw [if_pos hf] at he
          subst he
          refine ⟨rfl, rfl, ?_, ?_, fun t ht h => (notrec t ht h).elim⟩
          · intro a' b'
            rw [key, hx, hy]
            simp only [put, Option.some.injEq]
            by_cases ea : a' = a
            · subst ea
              rw [if_pos rfl]
              split
              · rename_i hb
                constructor
                · exact .inl
                · rintro (h | ⟨_, rfl, _⟩)
                  · exact h
                  · exact hb
              · simp only [List.mem_cons]
                constructor
                · rintro (rfl | h)
                  · exact .inr ⟨trivial, rfl, hf⟩
                  · exact .inl h
                · rintro (h | ⟨_, rfl, _⟩)
                  · exact .inr h
                  · exact .inl rfl
            · rw [if_neg ea]
              constructor
              · exact .inl
              · rintro (h | ⟨rfl, _⟩)
                · exact h
                · exact absurd rfl ea
          · intro j hj; simp [put, hj]
        · rw [if_neg hf] at he
          subst he
          refine ⟨rfl, rfl, ?_, ?_, fun t ht h => (notrec t ht h).elim⟩
          · intro a' b'
            rw [key, hx, hy]
            simp only [Option.some.injEq]
            constructor
            · exact .inl
            · rintro (h | ⟨rfl, rfl, h⟩)
              · exact h
              · exact absurd h hf
          · intro j hj; simp [put, hj]

/-! ## All fields -/

/-- Field `i` makes message `m` mention a type. -/
def MentionBy (P : Schema) (i m : Nat) (k : Kind) : Prop :=
  ((P.field i).parent = some m ∧ (P.field i).kind = k ∧
    (∀ t, k = .message t → (P.msg t).entry = false ∧ (P.msg m).entry = false)) ∨
  ((P.field i).parent = some m ∧ (P.msg m).entry = false ∧ ∃ t v, (P.field i).kind = .message t ∧ (P.msg t).entry = true ∧
    (P.fieldsOf t)[1]? = some v ∧ (P.field v).kind = k)

theorem mentions_iff {m : Nat} {k : Kind} : P.Mentions m k ↔ ∃ i < P.fields.length, P.MentionBy i m k := by
  constructor
  · rintro (⟨h1, h2, h3, h4⟩ | ⟨h1, h2, h3, h4, h5, h6, h7⟩)
    · exact ⟨_, h1, .inl ⟨h2, h3, h4⟩⟩
    · exact ⟨_, h1, .inr ⟨h2, h3, _, _, h4, h5, h6, h7⟩⟩
  · rintro ⟨i, h1, ⟨h2, h3, h4⟩ | ⟨h2, h3, t, v, h4, h5, h6, h7⟩⟩
    · exact .field h1 h2 h3 h4
    · exact .values h1 h2 h3 h4 h5 h6 h7

theorem fieldsOf_mem {m i : Nat} : i ∈ P.fieldsOf m ↔ i < P.fields.length ∧ (P.field i).parent = some m ∧
    (P.field i).extension = false := by
  simp [fieldsOf]

theorem typeOk_of (hP : P.Ok) {i : Nat} (hi : i < P.fields.length) (hk : (P.field i).kind ≠ .scalar) :
    P.TypeOk (P.field i).kind := by
  cases h : (P.field i).kind with
  | scalar => exact absurd h hk
  | enum o path => exact hP.enum i hi o path h
  | message t => exact hP.message i hi t h

/-- The path of the message of a field. -/
def ownerPath (P : Schema) (i : Nat) : List Name :=
  match (P.field i).parent with
  | some m => (P.msg m).path
  | none => []

theorem parentName_eq (i : Nat) : P.parentName i = fullName (P.ownerPath i) := by
  unfold parentName ownerPath
  cases (P.field i).parent <;> rfl

theorem owner_parts (hP : P.Ok) {i : Nat} (hi : i < P.fields.length) : ∀ n ∈ P.ownerPath i, Part n := by
  unfold ownerPath
  cases h : (P.field i).parent with
  | none => simp
  | some m => exact hP.parts m (hP.owner i hi m h)

/-- A message with this path, or none, encloses only one owner. -/
theorem owner_prefix (hP : P.Ok) {i x : Nat} (hx : x < P.messages.length) :
    (P.msg x).path <+: P.ownerPath i ↔ ∃ m, (P.field i).parent = some m ∧ P.Within x m := by
  unfold ownerPath
  cases h : (P.field i).parent with
  | none => simp [path_ne hP hx]
  | some m => simp [Within]

/-- What one field does. -/
structure Step (P : Schema) (st st' : State) (i : Nat) : Prop where
  fwd : st'.fwd = st.fwd
  used : ∀ d, st'.usedBy d = st.usedBy d ++ if (P.field i).kind = .message d then [i] else []
  deps : ∀ x y, y ∈ st'.deps x ↔ y ∈ st.deps x ∨
    (P.Siblings x y ∧ ∃ m k, P.Within x m ∧ P.MentionBy i m k ∧ P.TypeIn y k)
  other : ∀ j m, j ≠ i → (P.field j).parent = some m → (P.msg m).entry = false → st'.recursive j = st.recursive j
  self : ∀ m t, (P.field i).parent = some m → (P.field i).kind = .message t → (P.msg m).entry = false →
    (P.msg t).entry = false → P.Within t m → st'.recursive i = true

theorem resolveDependency_spec (hP : P.Ok) (st : State) {i : Nat} (hi : i < P.fields.length)
    (hk : (P.field i).kind ≠ .scalar)
    (hm : ∀ m t, (P.field i).parent = some m → (P.field i).kind = .message t → (P.msg m).entry = false) :
    ∃ st', P.resolveDependency st (P.parentName i) i = .ok st' ∧ st'.fwd = st.fwd ∧ st'.usedBy = st.usedBy ∧
      (∀ x y, y ∈ st'.deps x ↔ y ∈ st.deps x ∨
        (P.Siblings x y ∧ ∃ m k, P.Within x m ∧ P.MentionBy i m k ∧ P.TypeIn y k)) ∧
      (∀ j m, j ≠ i → (P.field j).parent = some m → (P.msg m).entry = false → st'.recursive j = st.recursive j) ∧
      (∀ m t, (P.field i).parent = some m → (P.field i).kind = .message t → (P.msg m).entry = false →
        (P.msg t).entry = false → P.Within t m → st'.recursive i = true) := by
  have hp := owner_parts hP hi
  have hn := parentName_eq (P := P) i
  -- a field that is no map
  have plain : (∀ t, (P.field i).kind = .message t → (P.msg t).entry = false) →
      ∃ st', Res.ok (P.resolveType st (P.parentName i) i) = .ok st' ∧ st'.fwd = st.fwd ∧ st'.usedBy = st.usedBy ∧
      (∀ x y, y ∈ st'.deps x ↔ y ∈ st.deps x ∨
        (P.Siblings x y ∧ ∃ m k, P.Within x m ∧ P.MentionBy i m k ∧ P.TypeIn y k)) ∧
      (∀ j m, j ≠ i → (P.field j).parent = some m → (P.msg m).entry = false → st'.recursive j = st.recursive j) ∧
      (∀ m t, (P.field i).parent = some m → (P.field i).kind = .message t → (P.msg m).entry = false →
        (P.msg t).entry = false → P.Within t m → st'.recursive i = true) := by
    intro hent
    obtain ⟨h1, h2, h3, h4, h5⟩ := resolveType_spec hP st hp (typeOk_of hP hi hk)
    rw [hn]
    refine ⟨_, rfl, h1, h2, ?_, ?_, ?_⟩
    · intro x y
      rw [h3]
      constructor
      · rintro (h | ⟨a, b, c⟩)
        · exact .inl h
        · obtain ⟨m, hm1, hm2⟩ := (owner_prefix hP a.1).mp b
          exact .inr ⟨a, m, _, hm2, .inl ⟨hm1, rfl, fun t ht => ⟨hent t ht, hm m t hm1 ht⟩⟩, c⟩
      · rintro (h | ⟨a, m, k, b, c, d⟩)
        · exact .inl h
        · rcases c with ⟨c1, rfl, c3⟩ | ⟨c1, c2, t, v, c3, c4, c5, c6⟩
          · exact .inr ⟨a, (owner_prefix hP a.1).mpr ⟨m, c1, b⟩, d⟩
          · exact absurd (hent t c3) (by rw [c4]; simp)
    · intro j m hj _ _
      exact h4 j hj
    · intro m t hm' ht _ _ hw
      apply h5 t ht
      rw [ownerPath, hm']
      exact hw
  unfold resolveDependency
  cases h : (P.field i).kind with
  | scalar => exact absurd h hk
  | enum o path =>
    simp only
    have := plain (by intro t ht; rw [h] at ht; cases ht)
    simpa only [h] using this
  | message t =>
    simp only
    by_cases he : (P.msg t).entry = true
    · rw [if_pos he]
      have ht := hP.message i hi t h
      obtain ⟨v, hv, hv'⟩ := hP.value t ht he
      simp only [hv]
      have vmem := fieldsOf_mem.mp (List.mem_of_getElem? hv)
      have only : ∀ m k, P.MentionBy i m k ↔ (P.field i).parent = some m ∧ (P.field v).kind = k := by
        intro m k
        constructor
        · rintro (⟨c1, rfl, c3⟩ | ⟨c1, c2, t', v', c3, c4, c5, c6⟩)
          · rw [h] at c3
            have := (c3 t rfl).1
            rw [he] at this; cases this
          · rw [h] at c3
            cases c3
            rw [hv] at c5
            cases c5
            exact ⟨c1, c6⟩
        · rintro ⟨a, b⟩
          exact .inr ⟨a, hm m t a h, t, v, h, he, hv, b⟩
      have scal : (P.field v).kind = .scalar → ∃ st', Res.ok st = .ok st' ∧ st'.fwd = st.fwd ∧ st'.usedBy = st.usedBy ∧
          (∀ x y, y ∈ st'.deps x ↔ y ∈ st.deps x ∨
            (P.Siblings x y ∧ ∃ m k, P.Within x m ∧ P.MentionBy i m k ∧ P.TypeIn y k)) ∧
          (∀ j m, j ≠ i → (P.field j).parent = some m → (P.msg m).entry = false → st'.recursive j = st.recursive j) ∧
          (∀ m t', (P.field i).parent = some m → (P.field i).kind = .message t' → (P.msg m).entry = false →
            (P.msg t').entry = false → P.Within t' m → st'.recursive i = true) := by
        intro hs
        refine ⟨st, rfl, rfl, rfl, ?_, fun _ _ _ _ _ => rfl, ?_⟩
        · intro x y
          constructor
          · exact .inl
          · rintro (h | ⟨a, m, k, b, c, d⟩)
            · exact h
            · rw [only] at c
              rw [← c.2, hs] at d
              exact d.elim
        · intro m t' _ ht' _ he' _
          rw [h] at ht'
          cases ht'
          rw [he] at he'; cases he'
      have vals : (P.field v).kind ≠ .scalar → ∃ st', Res.ok (P.resolveType st (P.parentName i) v) = .ok st' ∧
          st'.fwd = st.fwd ∧ st'.usedBy = st.usedBy ∧
          (∀ x y, y ∈ st'.deps x ↔ y ∈ st.deps x ∨
            (P.Siblings x y ∧ ∃ m k, P.Within x m ∧ P.MentionBy i m k ∧ P.TypeIn y k)) ∧
          (∀ j m, j ≠ i → (P.field j).parent = some m → (P.msg m).entry = false → st'.recursive j = st.recursive j) ∧
          (∀ m t', (P.field i).parent = some m → (P.field i).kind = .message t' → (P.msg m).entry = false →
            (P.msg t').entry = false → P.Within t' m → st'.recursive i = true) := by
        intro hs
        obtain ⟨h1, h2, h3, h4, h5⟩ := resolveType_spec hP st hp (typeOk_of hP vmem.1 hs)
        rw [hn]
        refine ⟨_, rfl, h1, h2, ?_, ?_, ?_⟩
        · intro x y
          rw [h3]
          constructor
          · rintro (h | ⟨a, b, c⟩)
            · exact .inl h
            · obtain ⟨m, hm1, hm2⟩ := (owner_prefix hP a.1).mp b
              exact .inr ⟨a, m, _, hm2, (only _ _).mpr ⟨hm1, rfl⟩, c⟩
          · rintro (h | ⟨a, m, k, b, c, d⟩)
            · exact .inl h
            · rw [only] at c
              obtain ⟨c1, rfl⟩ := c
              exact .inr ⟨a, (owner_prefix hP a.1).mpr ⟨m, c1, b⟩, d⟩
        · intro j m _ hj he'
          apply h4
          rintro rfl
          rw [vmem.2.1] at hj
          cases hj
          rw [he] at he'; cases he'
        · intro m t' _ ht' _ he' _
          rw [h] at ht'
          cases ht'
          rw [he] at he'; cases he'
      cases hvk : (P.field v).kind with
      | scalar => simpa only [h] using scal hvk
      | enum o path => simpa only [h] using vals (by rw [hvk]; simp)
      | message u =>
        simp only
        rw [if_neg (by rw [hv' u hvk]; simp)]
        simpa only [h] using vals (by rw [hvk]; simp)
    · rw [if_neg he]
      have := plain (by intro t' ht; rw [h] at ht; cases ht; simpa using he)
      simpa only [h] using this

theorem resolveField_spec (hP : P.Ok) (st : State) {i : Nat} (hi : i < P.fields.length) :
    ∃ st', P.resolveField st i = .ok st' ∧ Step P st st' i := by
  unfold resolveField
  cases h : (P.field i).kind with
  | scalar =>
    refine ⟨st, rfl, rfl, ?_, ?_, fun _ _ _ _ _ => rfl, ?_⟩
    · intro d; simp [h]
    · intro x y
      constructor
      · exact .inl
      · rintro (h' | ⟨a, m, k, b, c, d⟩)
        · exact h'
        · rcases c with ⟨c1, rfl, c3⟩ | ⟨c1, c2, t, v, c3, c4, c5, c6⟩
          · rw [h] at d; exact d.elim
          · rw [h] at c3; cases c3
    · intro m t _ ht; rw [h] at ht; cases ht
  | enum o path =>
    obtain ⟨st', h1, h2, h3, h4, h5, h6⟩ := resolveDependency_spec hP st hi (by rw [h]; simp)
      (by intro m t _ ht; rw [h] at ht; cases ht)
    exact ⟨st', h1, h2, fun d => by simp [h, h3], h4, h5, h6⟩
  | message t =>
    simp only
    by_cases he : ∃ m, (P.field i).parent = some m ∧ (P.msg m).entry = true
    · obtain ⟨m, hm, hm'⟩ := he
      have hin : P.inEntry i = true := by simp [inEntry, hm, hm']
      simp only [hin, if_true]
      refine ⟨_, rfl, rfl, ?_, ?_, fun _ _ _ _ _ => rfl, ?_⟩
      · intro d
        by_cases e : d = t
        · subst e; simp [put, h]
        · have : ¬ t = d := fun h => e h.symm
          simp [put, e, h, this]
      · intro x y
        constructor
        · exact .inl
        · rintro (h' | ⟨a, m', k, b, c, d⟩)
          · exact h'
          · rcases c with ⟨c1, rfl, c3⟩ | ⟨c1, c2, _⟩
            · rw [hm] at c1; cases c1
              have := (c3 t h).2
              rw [hm'] at this; cases this
            · rw [hm] at c1; cases c1
              rw [hm'] at c2; cases c2
      · intro m' t' hm2 _ he' _ _
        rw [hm] at hm2; cases hm2
        rw [hm'] at he'; cases he'
    · have hin : P.inEntry i = false := by
        unfold inEntry
        cases hp : (P.field i).parent with
        | none => rfl
        | some m => simpa using fun h => he ⟨m, hp, h⟩
      rw [hin]
      obtain ⟨st', h1, h2, h3, h4, h5, h6⟩ := resolveDependency_spec hP st hi (by rw [h]; simp)
        (by intro m t hm _; simpa using fun h => he ⟨m, hm, h⟩)
      simp only [Bool.false_eq_true, if_false, h1]
      refine ⟨_, rfl, h2, ?_, h4, h5, h6⟩
      intro d
      by_cases e : d = t
      · subst e; simp [put, h, h3]
      · have : ¬ t = d := fun h => e h.symm
        simp [put, e, h, this, h3]

/-- The state after some fields. -/
structure Resolved (P : Schema) (is : List Nat) (st : State) : Prop where
  fwd : ∀ x, st.fwd x = []
  used : ∀ d, st.usedBy d = is.filter fun i => (P.field i).kind = .message d
  deps : ∀ x y, y ∈ st.deps x ↔ P.Siblings x y ∧ ∃ i ∈ is, ∃ m k, P.Within x m ∧ P.MentionBy i m k ∧ P.TypeIn y k
  self : ∀ i ∈ is, ∀ m t, (P.field i).parent = some m → (P.field i).kind = .message t → (P.msg m).entry = false →
    (P.msg t).entry = false → P.Within t m → st.recursive i = true

theorem resolveFrom_spec (hP : P.Ok) : ∀ (is js : List Nat) (st : State), (∀ i ∈ is, i < P.fields.length) →
    Resolved P js st → ∃ st', P.resolveFrom st is = .ok st' ∧ Resolved P (js ++ is) st'
  | [], js, st, _, h => ⟨st, rfl, by simpa using h⟩
  | i :: is, js, st, hi, h => by
    obtain ⟨st1, h1, s⟩ := resolveField_spec hP st (hi i (by simp))
    have h2 : Resolved P (js ++ [i]) st1 := by
      refine ⟨?_, ?_, ?_, ?_⟩
      · intro x; rw [s.fwd, h.fwd]
      · intro d
        rw [s.used, h.used, List.filter_append]
        by_cases e : (P.field i).kind = .message d <;> simp [e]
      · intro x y
        rw [s.deps, h.deps]
        constructor
        · rintro (⟨a, j, hj, r⟩ | ⟨a, r⟩)
          · exact ⟨a, j, by simp [hj], r⟩
          · exact ⟨a, i, by simp, r⟩
        · rintro ⟨a, j, hj, r⟩
          rw [List.mem_append, List.mem_singleton] at hj
          rcases hj with hj | rfl
          · exact .inl ⟨a, j, hj, r⟩
          · exact .inr ⟨a, r⟩
      · intro j hj m t a1 a2 a3 a4 a5
        by_cases e : j = i
        · subst e; exact s.self m t a1 a2 a3 a4 a5
        · rw [s.other j m e a1 a3]
          rw [List.mem_append, List.mem_singleton] at hj
          rcases hj with hj | rfl
          · exact h.self j hj m t a1 a2 a3 a4 a5
          · exact absurd rfl e
    obtain ⟨st2, h3, h4⟩ := resolveFrom_spec hP is (js ++ [i]) st1 (fun j hj => hi j (List.mem_cons_of_mem _ hj)) h2
    refine ⟨st2, ?_, by simpa using h4⟩
    rw [resolveFrom, h1]
    exact h3

/-- The state after all fields. -/
structure Fresh (P : Schema) (st : State) : Prop where
  fwd : ∀ x, st.fwd x = []
  used : ∀ d, st.usedBy d = (List.range P.fields.length).filter fun i => (P.field i).kind = .message d
  deps : ∀ x y, y ∈ st.deps x ↔ P.Needs x y
  self : ∀ i < P.fields.length, ∀ m t, (P.field i).parent = some m → (P.field i).kind = .message t →
    (P.msg m).entry = false → (P.msg t).entry = false → P.Within t m → st.recursive i = true

theorem resolve_spec (hP : P.Ok) : ∃ st, P.resolve = .ok st ∧ Fresh P st := by
  obtain ⟨st, h, r⟩ := resolveFrom_spec hP (List.range P.fields.length) [] .initial (by simp)
    ⟨fun _ => rfl, fun _ => rfl, by intro x y; simp [State.initial], by simp⟩
  refine ⟨st, h, r.fwd, r.used, ?_, ?_⟩
  · intro x y
    rw [r.deps]
    simp only [Needs, mentions_iff, List.nil_append, List.mem_range]
    constructor
    · rintro ⟨a, i, hi, m, k, b, c, d⟩
      exact ⟨a, m, k, b, ⟨i, hi, c⟩, d⟩
    · rintro ⟨a, m, k, b, ⟨i, hi, c⟩, d⟩
      exact ⟨a, i, hi, m, k, b, c, d⟩
  · intro i hi
    exact r.self i (by simpa using hi)

end Schema
end HppProto.Gen
