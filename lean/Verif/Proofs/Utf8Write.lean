import Verif.Proofs.Write
/-! The validator has no part in the bytes of a message, nor in its depth. -/
namespace HppProto.Utf8Mono
open HppProto HppProto.Spec

variable {S : Nat → MsgD} {f g : List Byte → Bool}

theorem record_eq (enc : Nat → Msg → List Byte) (n : BitVec 32) (k : Kind) (v : Val) :
    record ⟨S, f⟩ enc n k v = record ⟨S, g⟩ enc n k v := by
  cases k <;> rfl

theorem member_eq (q : Kind → Val → Val → Bool) (enc : Nat → Msg → List Byte) (sd : SlotD) (es : List (Nat × Val)) :
    member ⟨S, f⟩ q enc sd es = member ⟨S, g⟩ q enc sd es := by
  have R : record ⟨S, f⟩ enc = record ⟨S, g⟩ enc := by funext n k v; exact record_eq _ _ _ _
  unfold member
  rw [R]

theorem encode_eq (q : Kind → Val → Val → Bool) : ∀ d id m, encode ⟨S, f⟩ q d id m = encode ⟨S, g⟩ q d id m
  | 0, _, _ => rfl
  | d + 1, id, m => by
    have E : encode ⟨S, f⟩ q d = encode ⟨S, g⟩ q d := by funext i x; exact encode_eq q d i x
    have M : member ⟨S, f⟩ q = member ⟨S, g⟩ q := by funext e sd es; exact member_eq _ _ _ _
    simp only [encode, E, M]

theorem nests_eq : ∀ d id m, nests ⟨S, f⟩ d id m → nests ⟨S, g⟩ d id m
  | 0, _, _, h => h
  | d + 1, id, m, h => fun p hp e he k hk => by
    have := h p hp e he k hk
    cases k with
    | scalar _ => trivial
    | msg i => exact nests_eq d _ _ this
    | group i => exact nests_eq d _ _ this

theorem utf8Ok_mono (H : ∀ bs, f bs = true → g bs = true) (q : Kind → Val → Val → Bool) :
    ∀ d id m, utf8Ok ⟨S, f⟩ q d id m → utf8Ok ⟨S, g⟩ q d id m
  | 0, _, _, _ => trivial
  | d + 1, id, m, h => fun p hp e he k hk hn => by
    obtain ⟨h1, h2⟩ := h p hp e he k hk hn
    refine ⟨fun e => H _ (h1 e), ?_⟩
    cases k with
    | scalar _ => trivial
    | msg i => exact utf8Ok_mono H q d _ _ h2
    | group i => exact utf8Ok_mono H q d _ _ h2

theorem utf8Ok_all (q : Kind → Val → Val → Bool) (hg : ∀ bs, g bs = true) :
    ∀ d id m, utf8Ok ⟨S, g⟩ q d id m
  | 0, _, _ => trivial
  | d + 1, id, m => fun p hp e he k hk hn => by
    refine ⟨fun _ => hg _, ?_⟩
    cases k with
    | scalar _ => trivial
    | msg i => exact utf8Ok_all q hg d _ _
    | group i => exact utf8Ok_all q hg d _ _

theorem enc_eq (d id m) : enc ⟨S, f⟩ d id m = enc ⟨S, g⟩ d id m := encode_eq _ _ _ _

theorem resize_known (ow gr : Bool) (buf : List Byte) (n : Nat) :
    (∃ b, resizeBuffer ow gr buf n = .ok b ∧ n ≤ b.length) ∨ ∃ e, resizeBuffer ow gr buf n = .err e := by
  rw [resizeBuffer]
  generalize (if ow = true then 0 else buf.length) = old
  dsimp only
  by_cases h1 : n > 2 ^ 64 - 1 - old
  · exact .inr ⟨_, if_pos h1⟩
  · rw [if_neg h1]
    cases gr
    · by_cases h2 : old + n > buf.length
      · exact .inr ⟨_, if_pos h2⟩
      · exact .inl ⟨buf, if_neg h2, by omega⟩
    · exact .inl ⟨_, rfl, by rw [resizeTo_length]; omega⟩

theorem write_le (H : ∀ bs, f bs = true → g bs = true) (hN : numbersOk ⟨S, f⟩) (limit id : Nat) (m : Msg) (ow gr : Bool)
    (buf : List Byte) (hl : (enc ⟨S, f⟩ (limit + 1) id m).length < 2 ^ 64) :
    serializeBuffer ⟨S, f⟩ limit ow gr id m buf = serializeBuffer ⟨S, g⟩ limit ow gr id m buf ∨
    ∃ b, serializeBuffer ⟨S, f⟩ limit ow gr id m buf = .ok (some .badMessage, b) := by
  have hN' : numbersOk ⟨S, g⟩ := hN
  have E := enc_eq (S := S) (f := f) (g := g) (limit + 1) id m
  by_cases hd : nests ⟨S, f⟩ (limit + 1) id m
  · have hd' := nests_eq (g := g) _ _ _ hd
    by_cases hmax : maxMessageSize ≤ (enc ⟨S, f⟩ (limit + 1) id m).length
    · rw [write_too_large _ hN ow gr buf hd hmax hl, write_too_large _ hN' ow gr buf hd' (E ▸ hmax) (E ▸ hl)]
      exact .inl rfl
    · have hmax : (enc ⟨S, f⟩ (limit + 1) id m).length < maxMessageSize := by omega
      rcases resize_known ow gr buf (enc ⟨S, f⟩ (limit + 1) id m).length with ⟨b, hb, room⟩ | ⟨e, he⟩
      · obtain ⟨k1, k2⟩ := write_ok _ hN ow gr buf hd hmax hb room
        by_cases hu : utf8Ok ⟨S, f⟩ isDefault (limit + 1) id m
        · rw [k1 hu, (write_ok _ hN' ow gr buf hd' (E ▸ hmax) (E ▸ hb) (E ▸ room)).1 (utf8Ok_mono H _ _ _ _ hu), E]
          exact .inl rfl
        · obtain ⟨b', e, -⟩ := k2 hu
          exact .inr ⟨b', e⟩
      · rw [write_no_room _ hN ow gr buf hd hmax he, write_no_room _ hN' ow gr buf hd' (E ▸ hmax) (E ▸ he)]
        exact .inl rfl
  · exact .inr ⟨_, write_too_deep _ ow gr buf hd⟩

end HppProto.Utf8Mono
