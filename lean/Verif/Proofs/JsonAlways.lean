import Verif.Proofs.JsonStyle
import Verif.Model.JsonAlways
import Verif.Spec.JsonAlways

namespace HppProto.Json

variable {T : JTypes} {G : Glaze} {utf8 : List Byte → Bool}

/-- What the form asks of the fields that are not set implies that it is what is written. -/
theorem plain_asWritten {S : Style} {f : JField} {m : DynMsg} {j : JTree} (h : Unset.plain G utf8 S f m j) :
    Unset.asWritten G utf8 S f m j := by
  obtain ⟨hp, hv, h⟩ := h
  unfold Unset.asWritten
  rw [if_pos hp]
  refine ⟨0, hv, ?_⟩
  unfold Unset.documented at h
  cases e : f.ty <;> rw [e] at h hp <;> first | exact h | cases hp

section
variable {S : Style} {u v : Unset} (huv : ∀ f m j, u G utf8 S f m j → v G utf8 S f m j)
  {form form' : Nat → DynMsg → JTree → Prop} (ih : ∀ id m j, form id m j → form' id m j)
include ih

theorem field_mono {f : JField} {m : DynMsg} {j : JTree} (h : fieldForm T G utf8 S form f m j) :
    fieldForm T G utf8 S form' f m j := by
  unfold fieldForm at h ⊢
  split at h
  · rename_i id _
    split at h
    · obtain ⟨ss, h1, h⟩ := h
      rw [if_pos (by assumption)]
      refine ⟨ss, h1, ?_⟩
      split at h
      · obtain ⟨ms, h2, h3⟩ := h
        rw [if_pos (by assumption)]
        exact ⟨ms, all2_mono (fun _ _ => ih _ _ _) h2, h3⟩
      · obtain ⟨ms, h2, h3⟩ := h
        rw [if_neg (by assumption)]
        exact ⟨ms, all2_mono (fun _ _ => ih _ _ _) h2, h3⟩
    · obtain ⟨s, h1, h⟩ := h
      rw [if_neg (by assumption)]
      exact ⟨s, h1, ih _ _ _ h⟩
  · exact h
  · exact h
  · exact h

theorem body_mono {id : Nat} {m : DynMsg} {j : JTree} (h : bodyForm T G utf8 S form id m j) : bodyForm T G utf8 S form' id m j := by
  have hf : ∀ f x, fieldForm T G utf8 S form f m x → fieldForm T G utf8 S form' f m x := fun f x h => field_mono ih h
  obtain ⟨hlen, h⟩ := h
  refine ⟨hlen, ?_⟩
  simp only at h ⊢
  split at h
  · rw [if_pos (by assumption)]
    obtain ⟨k, v, s, x, e, h1, h2, h3, h4, h5⟩ := h
    exact ⟨k, v, s, x, e, h1, h2, h3, hf v _ h4, h5⟩
  · rw [if_neg (by assumption)]
    cases hwk : (T id).wk with
    | none =>
      rw [hwk] at h
      obtain ⟨fs, ms, h1, h2, h3, h4⟩ := h
      refine ⟨fs, ms, all2_mono (fun f p hp => ?_) h1, h2, h3, h4⟩
      obtain ⟨k1, k2, k3⟩ := hp
      refine ⟨k1, k2, ?_⟩
      rcases k3 with ⟨k3, k4⟩ | k3
      · exact .inl ⟨k3, hf f _ k4⟩
      · exact .inr k3
    | any => rw [hwk] at h; exact h
    | timestamp => rw [hwk] at h; exact h
    | duration => rw [hwk] at h; exact h
    | fieldMask => rw [hwk] at h; exact h
    | value =>
      rw [hwk] at h
      obtain ⟨f, h1, h2, h3⟩ := h
      exact ⟨f, h1, h2, h3.imp (fun x => x) (hf f _)⟩
    | struct => rw [hwk] at h; obtain ⟨f, h1, h2⟩ := h; exact ⟨f, h1, hf f _ h2⟩
    | listValue => rw [hwk] at h; obtain ⟨f, h1, h2⟩ := h; exact ⟨f, h1, hf f _ h2⟩
    | wrapper => rw [hwk] at h; obtain ⟨f, h1, h2, h3⟩ := h; exact ⟨f, h1, h2, hf f _ h3⟩

include huv

theorem allField_mono {f : JField} {m : DynMsg} {j : JTree}
    (h : allField T G utf8 S u form f m j) : allField T G utf8 S v form' f m j := by
  unfold allField at h ⊢
  split at h
  · rename_i c; rw [if_pos c]; exact field_mono ih h
  · rename_i c; rw [if_neg c]; exact huv _ _ _ h

theorem allBody_mono {id : Nat} {m : DynMsg} {j : JTree} (h : allBody T G utf8 S u form id m j) :
    allBody T G utf8 S v form' id m j := by
  unfold allBody at h ⊢
  split at h
  · rename_i c
    rw [if_pos c]
    obtain ⟨hl, ms, hall, e⟩ := h
    exact ⟨hl, ms, all2_mono (fun f p hp => ⟨hp.1, hp.2.1, allField_mono huv ih hp.2.2⟩) hall, e⟩
  · rename_i c
    rw [if_neg c]
    split at h
    · rename_i c'
      rw [if_pos c']
      obtain ⟨hl, f, h1, h2, h3⟩ := h
      exact ⟨hl, f, h1, h2, allField_mono huv ih h3⟩
    · rename_i c'
      rw [if_neg c']
      exact body_mono ih h

end

theorem allFormAt_mono {S : Style} {u v : Unset} (huv : ∀ f m j, u G utf8 S f m j → v G utf8 S f m j) (d : Nat) :
    ∀ id m j, AllFormAt T G utf8 S u d id m j → AllFormAt T G utf8 S v d id m j := by
  induction d with
  | zero => exact fun _ _ _ h => h
  | succ d ih => exact fun _ _ _ h => allBody_mono huv ih h

section
variable (L : G.Lawful) (hT : ∀ id, (T id).Ok T) {o : JOpts}
include L hT

theorem write_field_all {id : Nat} {form : Nat → DynMsg → JTree → Prop} {w : JWriter} (ih : Writes T form w) {f : JField}
    (hf : f ∈ (T id).fields) {m : DynMsg} {j : JTree}
    (h : allField T G utf8 (writerStyle o.preserve) Unset.asWritten form f m j) (ind : Nat) :
    ∃ t, writeFieldAll T G o w ind f m = .ok t ∧ Spells j t := by
  have hD := hT id
  have field : ∀ x, fieldForm T G utf8 (writerStyle o.preserve) form f m x →
      ∃ t, writeField T G o w ind false f m = .ok t ∧ Spells x t := fun x hx =>
    write_field L ih (fun E e p hp => (hD.enums f hf E e).2 p hp) (hD.maps f hf) hx ind
  unfold allField at h
  unfold writeFieldAll
  by_cases c : f.dyn.hasValue m = true ∨ f.dyn.repeated = true
  · rw [if_pos c] at h
    rw [if_pos (by simpa using c)]
    exact field j h
  · rw [if_neg c] at h
    rw [if_neg (by simpa using c)]
    unfold Unset.asWritten at h
    have hr : f.dyn.repeated = false := by
      cases e : f.dyn.repeated with
      | false => rfl
      | true => exact absurd (.inr e) c
    have num : ∀ {v}, f.dyn.value m = .num v → (∀ id, f.ty ≠ .msg id) → (f.ty ≠ .string) → (f.ty ≠ .bytes) →
        numForm G (writerStyle o.preserve) f.ty v j → fieldForm T G utf8 (writerStyle o.preserve) form f m j := by
      intro v hv hn hs hb hform
      unfold fieldForm
      cases e : f.ty with
      | msg id => exact absurd e (hn id)
      | string => exact absurd e hs
      | bytes => exact absurd e hb
      | _ => rw [e] at hform; simp only [hr, Bool.false_eq_true, if_false]; exact ⟨v, hv, hform⟩
    cases e : f.ty with
    | int a b =>
      rw [if_pos (by rw [e]; rfl)] at h
      obtain ⟨v, hv, hform⟩ := h
      exact field j (num hv (by simp [e]) (by simp [e]) (by simp [e]) hform)
    | float a =>
      rw [if_pos (by rw [e]; rfl)] at h
      obtain ⟨v, hv, hform⟩ := h
      exact field j (num hv (by simp [e]) (by simp [e]) (by simp [e]) hform)
    | bool =>
      rw [if_pos (by rw [e]; rfl)] at h
      obtain ⟨v, hv, hform⟩ := h
      exact field j (num hv (by simp [e]) (by simp [e]) (by simp [e]) hform)
    | _ =>
      rw [if_neg (by simp [e, JType.isPlainNumber])] at h
      subst h
      exact ⟨_, rfl, .null⟩

theorem write_members_all {id : Nat} {form : Nat → DynMsg → JTree → Prop} {w : JWriter} (ih : Writes T form w) {m : DynMsg}
    (ind : Nat) : ∀ {fs : List JField} {ms : List (JStr × JTree)}, (∀ f ∈ fs, f ∈ (T id).fields) →
      All2 (fun f p => (writerStyle o.preserve).key f p.1.text ∧ p.1.plain = true ∧
        allField T G utf8 (writerStyle o.preserve) Unset.asWritten form f m p.2)
        (fs.filter fun f => shown f m) ms →
      ∃ ts, writeMembersAll T G o w ind m fs = .ok ts ∧ All2 SpellsMember ms ts
  | [], [], _, _ => ⟨[], rfl, trivial⟩
  | [], _ :: _, _, h => h.elim
  | f :: fs, ms, hmem, h => by
    rw [List.filter_cons] at h
    rw [writeMembersAll]
    have hs : f.printed m = shown f m := rfl
    rw [hs]
    cases hv : shown f m with
    | false =>
      simp only [hv, Bool.false_eq_true, if_false] at h ⊢
      exact write_members_all ih ind (fun g hg => hmem g (by simp [hg])) h
    | true =>
      simp only [hv, if_true] at h ⊢
      match ms, h with
      | p :: ms, ⟨⟨hk, hp, hform⟩, hrest⟩ =>
        obtain ⟨ts, h1, h2⟩ := write_members_all ih ind (fun g hg => hmem g (by simp [hg])) hrest
        have hf := hmem f (by simp)
        obtain ⟨t, h3, h4⟩ := write_field_all L hT ih hf hform ind
        refine ⟨(G.writeStr (f.key o) ++ 0x3a :: o.space ++ t) :: ts, by simp [h1, h3], ?_, h2⟩
        have hkey : p.1.text = f.key o := hk
        have hplain : Plain (f.key o) := by
          unfold JField.key
          split
          · exact ((hT id).plain f hf).1
          · exact ((hT id).plain f hf).2
        have hps : p.1 = ⟨f.key o, true⟩ := by
          rw [← hkey, ← hp]
        have hstr : SpellsStr p.1 (G.writeStr (f.key o)) := by
          rw [hps, L.writePlain _ hplain]
          exact spellsStr_plain hplain
        have := SpellsMember.mk hstr ws_nil (ws_space o) h4
        simpa using this

theorem write_body_all {form : Nat → DynMsg → JTree → Prop} {w : JWriter} (ih : Writes T form w)
    (hsh : ShapedForm T G utf8 (writerStyle o.preserve) form) :
    Writes T (allBody T G utf8 (writerStyle o.preserve) Unset.asWritten form) (writeBodyAll T G o w) := by
  intro ind id m j h
  unfold allBody at h
  unfold writeBodyAll
  dsimp only
  cases he : (T id).entry with
  | true =>
    rw [if_neg (by simp [he]), if_neg (by simp [he])] at h
    rw [if_pos rfl]
    exact write_body L hT ih hsh ind id m j h
  | false =>
    rw [if_neg (by simp)]
    have top : ∀ {x : Res (List Byte)}, (∃ t, x = .ok t ∧ Spells j t) → ∃ t, x = .ok t ∧ Written T id j t := by
      rintro x ⟨t, h1, h2⟩
      exact ⟨t, h1, by unfold Written; rw [if_neg (by simp [he])]; exact h2⟩
    cases hwk : (T id).wk with
    | none =>
      rw [if_pos ⟨he, hwk⟩] at h
      obtain ⟨_, ms, hall, rfl⟩ := h
      apply top
      obtain ⟨ts, h1, h2⟩ := write_members_all L hT ih (o.deeper ind) (fun f hf => hf) hall
      refine ⟨_, by simp [writeObjectAll, h1]; rfl, ?_⟩
      have := Spells.obj (members_of_seq (seq_intercalate (ws_line o (o.deeper ind)) (ws_line o ind) h2 (ws_line o (o.deeper ind))))
      simpa using this
    | wrapper =>
      rw [if_neg (by simp [hwk]), if_pos ⟨he, hwk⟩] at h
      obtain ⟨_, f, hf, hs, h⟩ := h
      apply top
      have hs' : f.printed m = true := hs
      obtain ⟨t, h1, h2⟩ := write_field_all L hT ih (id := id) (by rw [hf]; simp) h ind
      exact ⟨t, by simp [hf, hs', h1], h2⟩
    | _ =>
      rw [if_neg (by simp [hwk]), if_neg (by simp [hwk])] at h
      exact write_body L hT ih hsh ind id m j h

omit L hT in
theorem allFormAt_shaped (S : Style) (u : Unset) (d : Nat) : ShapedForm T G utf8 S (AllFormAt T G utf8 S u d) := by
  intro id m j hk h
  cases d with
  | zero => exact h.elim
  | succ d =>
    unfold AllFormAt allBody at h
    rw [if_neg (by rintro ⟨_, e⟩; rw [e] at hk; simp at hk), if_neg (by rintro ⟨_, e⟩; rw [e] at hk; simp at hk)] at h
    exact ⟨_, h⟩

theorem write_level_all (d : Nat) :
    Writes T (AllFormAt T G utf8 (writerStyle o.preserve) Unset.asWritten d) (writeLevelAll T G o d) := by
  induction d with
  | zero => intro ind id m j h; exact h.elim
  | succ d ih => exact write_body_all L hT ih (allFormAt_shaped _ _ d)

end

end HppProto.Json
