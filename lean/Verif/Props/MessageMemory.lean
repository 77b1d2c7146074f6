import Verif.Proofs.MessageMemoryRun

/-!
# C124-C126: nested dynamic messages in memory
-/

namespace HppProto.Props

open HppProto.MsgMem
open HppProto.MsgSpec (MTree Trees Apart Separate Shows target)

/-- C124: after every history of calls that share nothing, the messages of a program read as trees
that are changed by the same calls.  No call reads or writes outside of its memory, and all of them
end: some depth of calls is enough. -/
theorem C124_independent_trees {V : Type} [Inhabited V] (T : MTypes) (ops : List (MOp V))
    (hs : ∀ o ∈ ops, Separate o) (w : Trees V) (hw : MsgSpec.run T ops [] = some w) :
    ∃ fuel s, (∀ f ≥ fuel, MState.init.run T f ops = .ok s) ∧ Shows T s w := by
  obtain ⟨fuel, s, d, h1, h2⟩ := run_ok ops (inv_init T) hs hw
  exact ⟨fuel, s, h1, inv_shows h2⟩

/-- C124: what is read is determined by the calls: a history that gives a result with any depth of
calls gives this one. -/
theorem C124_result {V : Type} [Inhabited V] (T : MTypes) (ops : List (MOp V))
    (hs : ∀ o ∈ ops, Separate o) (w : Trees V) (hw : MsgSpec.run T ops [] = some w) (fuel : Nat)
    (s : MState V) (h : MState.init.run T fuel ops = .ok s) : Shows T s w := by
  obtain ⟨fuel', s', h1, h2⟩ := C124_independent_trees T ops hs w hw
  have h3 := h1 (max fuel fuel') (by omega)
  have h4 := run_mono (Nat.le_max_left fuel fuel') ops MState.init s h
  rw [h4] at h3
  exact Res.ok.inj h3 ▸ h2

/-- A message type with a number, a message of the same type, and a list of them. -/
def nodeType : MTypes := fun _ => [.val, .one 0, .many 0]

/-- A message with a child that has a list of two, and a second message that is a copy of the child,
in which the first element is changed. -/
def nodeOps : List (MOp Nat) :=
  [.new 0, .emplace ⟨0, []⟩ 1, .resize ⟨0, [(1, 0)]⟩ 2 2, .setVal ⟨0, [(1, 0), (2, 1)]⟩ 0 7,
    .new 0, .copy ⟨1, []⟩ ⟨0, [(1, 0)]⟩, .setVal ⟨1, [(2, 0)]⟩ 0 9, .add ⟨1, []⟩ 2]

/-- The number in the message at a path. -/
def readNum (T : MTypes) (fuel : Nat) (ops : List (MOp Nat)) (a : MPath) : Option Nat :=
  match (MState.init (V := Nat)).run T fuel ops with
  | .ok s =>
    match s.find T a with
    | some (_, b, r) =>
      match getSlot s.mem b r 0 with
      | .ok (.val v) => some v
      | _ => none
    | none => none
  | _ => none

/-- C124, example: calls that share nothing, with copies in both messages and memory that grows. -/
theorem nodeOps_ok : (∀ o ∈ nodeOps, Separate o) ∧ (MsgSpec.run nodeType nodeOps []).isSome = true ∧
    readNum nodeType 5 nodeOps ⟨0, [(1, 0), (2, 1)]⟩ = some 7 ∧
    readNum nodeType 5 nodeOps ⟨1, [(2, 1)]⟩ = some 7 ∧
    readNum nodeType 5 nodeOps ⟨0, [(1, 0), (2, 0)]⟩ = some 0 ∧
    readNum nodeType 5 nodeOps ⟨1, [(2, 0)]⟩ = some 9 := by
  refine ⟨?_, by decide +kernel, by decide +kernel, by decide +kernel, by decide +kernel,
    by decide +kernel⟩
  simp [nodeOps, Separate, Apart]

/-- C125, for a source and a destination that are apart: copying ends, the destination then has the
contents of the source, and no message that is apart from the destination has changed. -/
theorem C125_copy_partial {V : Type} [Inhabited V] (T : MTypes) (ops : List (MOp V))
    (hs : ∀ o ∈ ops, Separate o) (w : Trees V) (hw : MsgSpec.run T ops [] = some w) (a src : MPath)
    (hap : Apart a src) (t : Nat) (old c : List (MTree V)) (ha : w.get T a = some (t, old))
    (hc : w.get T src = some (t, c)) :
    ∃ fuel s w', (∀ f ≥ fuel, MState.init.run T f (ops ++ [.copy a src]) = .ok s) ∧ Shows T s w' ∧
      w'.get T a = some (t, c) ∧ ∀ b, Apart a b → w'.get T b = w.get T b := by
  have hupd : ∃ w', w.upd T a (fun u _ => if t = u then some c else none) = some w' := by
    cases hx : w[a.root]? with
    | none => simp [Trees.get, hx] at ha
    | some y =>
      obtain ⟨t0, row⟩ := y
      simp only [Trees.get, hx, bind, Option.bind] at ha
      have main : ∀ (P : List (Nat × Nat)) (t0 : Nat) (row : List (MTree V)),
          MsgSpec.get T t0 row P = some (t, old) →
          ∃ row', MsgSpec.upd T (fun u _ => if t = u then some c else none) t0 row P = some row' := by
        intro P
        induction P with
        | nil =>
          intro t0 row h
          obtain ⟨rfl, rfl⟩ : t0 = t ∧ row = old := by simpa [MsgSpec.get] using h
          exact ⟨c, by simp [MsgSpec.upd]⟩
        | cons st P ih =>
          intro t0 row h
          obtain ⟨k, i⟩ := st
          cases hu : (T t0)[k]? >>= MsgSpec.MField.kid with
          | none => rw [get_val hu] at h; cases h
          | some u =>
            cases hf : (T t0)[k]? with
            | none => simp [hf] at hu
            | some g =>
              have hu' : MsgSpec.MField.kid g = some u := by simpa [hf] using hu
              cases hk : row[k]? with
              | none => simp [MsgSpec.get, hu, hk] at h
              | some x =>
                cases x with
                | val v => simp [MsgSpec.get, hu, hk] at h
                | kids rows =>
                  cases hi : rows[i]? with
                  | none => rw [get_cons_none hf hu' hk hi] at h; cases h
                  | some e =>
                    rw [get_cons hf hu' hk hi] at h
                    obtain ⟨row', h1⟩ := ih u e h
                    exact ⟨_, by rw [upd_cons hf hu' hk hi, h1]; rfl⟩
      obtain ⟨row', h1⟩ := main a.steps t0 row ha
      exact ⟨_, by simp [Trees.upd, hx, h1]; rfl⟩
  obtain ⟨w', hw'⟩ := hupd
  have hrun : ∀ (os : List (MOp V)) (w0 : Trees V), MsgSpec.run T os w0 = some w →
      MsgSpec.run T (os ++ [.copy a src]) w0 = some w' := by
    intro os
    induction os with
    | nil =>
      intro w0 h
      obtain rfl := Option.some.inj h
      simp only [List.nil_append, MsgSpec.run, MsgSpec.step, hc, bind, Option.bind, hw']
    | cons o os ih =>
      intro w0 h
      simp only [MsgSpec.run, List.cons_append] at h ⊢
      cases h1 : MsgSpec.step T w0 o with
      | none => simp [h1] at h
      | some w1 =>
        simp only [h1, bind, Option.bind] at h ⊢
        exact ih w1 h
  obtain ⟨fuel, s, h1, h2⟩ := C124_independent_trees T (ops ++ [.copy a src])
    (by
      intro o ho
      rcases List.mem_append.mp ho with h | h
      · exact hs o h
      · rw [List.mem_singleton.mp h]; exact hap) w' (hrun ops [] hw)
  refine ⟨fuel, s, w', h1, h2, ?_, fun b hb => trees_upd_apart hw' hb⟩
  obtain ⟨u, c0, c', g1, g2, g3⟩ := trees_upd_self hw'
  rw [ha] at g1
  obtain ⟨rfl, rfl⟩ : t = u ∧ old = c0 := by simpa using g1
  simp at g2
  rw [g3, g2]

/-- C125, example: the copy in `nodeOps` meets the conditions. -/
example : Apart (⟨1, []⟩ : MPath) ⟨0, [(1, 0)]⟩ ∧
    ((MsgSpec.run nodeType (nodeOps.take 5) []).bind fun w => (w.get nodeType ⟨0, [(1, 0)]⟩).map (·.1)) =
      some 0 ∧
    ((MsgSpec.run nodeType (nodeOps.take 5) []).bind fun w => (w.get nodeType ⟨1, []⟩).map (·.1)) =
      some 0 := ⟨by simp [Apart], by decide +kernel, by decide +kernel⟩

/-- C125, refuted: copying a message onto itself erases the messages in it.  The number 5 in the child
is 0 afterwards. -/
theorem C125_self_copy_erases : ∀ f ≥ 5,
    readNum nodeType f [.new 0, .emplace ⟨0, []⟩ 1, .setVal ⟨0, [(1, 0)]⟩ 0 5] ⟨0, [(1, 0)]⟩ = some 5 ∧
    readNum nodeType f [.new 0, .emplace ⟨0, []⟩ 1, .setVal ⟨0, [(1, 0)]⟩ 0 5, .copy ⟨0, []⟩ ⟨0, []⟩]
      ⟨0, [(1, 0)]⟩ = some 0 := by
  have mono : ∀ (ops : List (MOp Nat)) (a : MPath) (v f : Nat), readNum nodeType 5 ops a = some v → 5 ≤ f →
      readNum nodeType f ops a = some v := by
    intro ops a v f h hf
    unfold readNum at h ⊢
    cases hr : (MState.init (V := Nat)).run nodeType 5 ops with
    | ok s =>
      rw [run_mono hf ops _ s hr]
      rw [hr] at h
      exact h
    | _ => rw [hr] at h; cases h
  intro f hf
  exact ⟨mono _ _ _ f (by decide +kernel) hf, mono _ _ _ f (by decide +kernel) hf⟩

/-- C125, refuted: copying a part of a message over the message reads through a null pointer when the
part has a message of its own. -/
theorem C125_part_over_whole : ∀ f ≥ 2,
    (MState.init (V := Nat)).run nodeType f [.new 0, .emplace ⟨0, []⟩ 1, .emplace ⟨0, [(1, 0)]⟩ 1,
      .copy ⟨0, []⟩ ⟨0, [(1, 0)]⟩] = .ub := by
  intro f hf
  obtain ⟨g, rfl⟩ : ∃ g, f = g + 2 := ⟨f - 2, by omega⟩
  with_unfolding_all rfl

/-- A message type with a number and a message of the same type. -/
def chainType : MTypes := fun _ => [.val, .one 0]

theorem chain_stuck : ∀ (fuel : Nat) (m : MMem Nat) (b sb v w : Nat), b ≠ sb →
    m[sb]? = some [[.val v, .kids b 1 1]] → m[b]? = some [[.val w, .kids 0 0 0]] →
    cloneMsg chainType fuel 0 b 0 sb 0 m = .stuck
  | 0, _, _, _, _, _, _, _, _ => rfl
  | fuel + 1, m, b, sb, v, w, hne, hs, hb => by
    have hbl := (List.getElem?_eq_some_iff.mp hb).1
    have hsl := (List.getElem?_eq_some_iff.mp hs).1
    let m1 := m.set b [[.val v, .kids 0 0 0]]
    have b1 : m1[b]? = some [[.val v, .kids 0 0 0]] := by simp [m1, hbl]
    have s1 : m1[sb]? = some [[.val v, .kids b 1 1]] := by
      simp only [m1]; rw [List.getElem?_set, if_neg hne, hs]
    let m2 := m1 ++ [[zeroRow chainType 0]]
    have hl1 : m1.length = m.length := by simp [m1]
    have b2 : m2[b]? = some [[.val v, .kids 0 0 0]] := by
      simp only [m2]; rw [List.getElem?_append_left (by omega), b1]
    let m3 := m2.set b [[.val v, .kids m1.length 1 1]]
    have hl2 : m2.length = m.length + 1 := by simp [m2, hl1]
    have b3 : m3[b]? = some [[.val v, .kids m1.length 1 1]] := by
      simp only [m3]; rw [List.getElem?_set, if_pos rfl, if_pos (by omega)]
    have s3 : m3[sb]? = some [[.val v, .kids b 1 1]] := by
      simp only [m3, m2]
      rw [List.getElem?_set, if_neg hne, List.getElem?_append_left (by omega), s1]
    have q3 : m3[m1.length]? = some [[.val 0, .kids 0 0 0]] := by
      simp only [m3, m2]
      rw [List.getElem?_set, if_neg (by omega), List.getElem?_append_right (by omega), Nat.sub_self]
      rfl
    have ih := chain_stuck fuel m3 m1.length b v 0 (by omega) b3 q3
    have f0 : cloneField chainType (cloneMsg chainType fuel) b 0 sb 0 0 .val m = .ok m1 := by
      simp [cloneField, getSlot, getRow, setSlot, setRow, bind, Res.bind, hs, hb, m1]
    have e3 : atSlot b 0 1 (emplace chainType 0) m1 = .ok m3 := by
      have g1 : getSlot m1 b 0 1 = .ok (.kids 0 0 0) := by
        simp [getSlot, getRow, bind, Res.bind, b1]
      have g2 : setSlot m2 b 0 1 (.kids m1.length 1 1) = .ok m3 := by
        simp [setSlot, getRow, setRow, bind, Res.bind, b2, m3]
      exact atSlot_run g1 (by simp [emplace, MSlot.get, bind, Res.bind, m2]) g2
    have f1 : cloneField chainType (cloneMsg chainType fuel) b 0 sb 0 1 (.one 0) m1 = .stuck := by
      have g1 : getSlot m1 sb 0 1 = .ok (.kids b 1 1) := by simp [getSlot, getRow, bind, Res.bind, s1]
      have g2 : getSlot m3 b 0 1 = .ok (.kids m1.length 1 1) := by
        simp [getSlot, getRow, bind, Res.bind, b3]
      have g3 : getSlot m3 sb 0 1 = .ok (.kids b 1 1) := by simp [getSlot, getRow, bind, Res.bind, s3]
      simp only [cloneField, g1, bind, Res.bind, MSlot.get, Nat.succ_ne_zero, if_false, e3, g2, g3]
      exact ih
    show cloneFields chainType (cloneMsg chainType fuel) b 0 sb 0 [.val, .one 0] 0 m = .stuck
    simp only [cloneFields, bind, Res.bind, f0, f1]

/-- C125, refuted: copying a message into a part of it never ends: for no depth of calls there is a
result. -/
theorem C125_whole_into_part : ∀ f,
    (MState.init (V := Nat)).run chainType f [.new 0, .emplace ⟨0, []⟩ 1, .copy ⟨0, [(1, 0)]⟩ ⟨0, []⟩] =
      .stuck := by
  intro f
  have := chain_stuck f [[], [[.val 0, .kids 2 1 1]], [[.val 0, .kids 0 0 0]]] 2 1 0 0 (by decide) rfl rfl
  have h : (MState.init (V := Nat)).run chainType f
      [.new 0, .emplace ⟨0, []⟩ 1, .copy ⟨0, [(1, 0)]⟩ ⟨0, []⟩] =
      ((cloneMsg chainType f 0 2 0 1 0 [[], [[.val 0, .kids 2 1 1]], [[.val 0, .kids 0 0 0]]]).bind
        fun m => .ok (⟨m, [(0, 1)]⟩ : MState Nat)).bind fun s => .ok s := by with_unfolding_all rfl
  rw [h, this]
  rfl

/-- C126, without aliases: a call changes no message that is apart from the one it is made on. -/
theorem C126_no_side_effects_partial {V : Type} [Inhabited V] (T : MTypes) (ops : List (MOp V)) (o : MOp V)
    (hs : ∀ x ∈ ops ++ [o], Separate x) (w w' : Trees V) (hw : MsgSpec.run T ops [] = some w)
    (ho : MsgSpec.step T w o = some w') (b : MPath)
    (hb : ∀ a, target o = some a → Apart a b) (t : Nat) (c : List (MTree V))
    (hc : w.get T b = some (t, c)) :
    ∃ fuel s s', (∀ f ≥ fuel, MState.init.run T f ops = .ok s ∧ s.step T f o = .ok s') ∧
      Shows T s w ∧ Shows T s' w' ∧ w'.get T b = some (t, c) := by
  obtain ⟨f1, s, d, h1, h2⟩ := run_ok ops (inv_init T) (fun x h => hs x (by simp [h])) hw
  obtain ⟨f2, s', d', h3, h4⟩ := step_ok h2 o (hs o (by simp)) ho
  refine ⟨max f1 f2, s, s', fun f hf => ⟨h1 f (by omega), step_mono (show f2 ≤ f by omega) s o s' h3⟩,
    inv_shows h2, inv_shows h4, ?_⟩
  rw [← hc]
  cases o with
  | new t' =>
    simp only [MsgSpec.step, Option.some.injEq] at ho
    rw [← ho]
    cases hx : w[b.root]? with
    | none => simp [Trees.get, hx] at hc
    | some y =>
      have hl := (List.getElem?_eq_some_iff.mp hx).1
      have e : (w ++ [(t', MsgSpec.blank T t')])[b.root]? = some y := by
        rw [List.getElem?_append_left hl, hx]
      simp only [Trees.get, e, hx, bind, Option.bind]
  | copy a src =>
    simp only [MsgSpec.step] at ho
    cases hg : w.get T src with
    | none => simp [hg] at ho
    | some y => simp only [hg, bind, Option.bind] at ho; exact trees_upd_apart ho (hb a rfl)
  | copyField a k src =>
    simp only [MsgSpec.step] at ho
    cases hg : w.get T src with
    | none => simp [hg] at ho
    | some y => simp only [hg, bind, Option.bind] at ho; exact trees_upd_apart ho (hb a rfl)
  | set a k src =>
    simp only [MsgSpec.step] at ho
    cases hg : w.get T src with
    | none => simp [hg] at ho
    | some y => simp only [hg, bind, Option.bind] at ho; exact trees_upd_apart ho (hb a rfl)
  | alias a src => exact False.elim (hs (.alias a src) (by simp))
  | aliasField a k src => exact False.elim (hs (.aliasField a k src) (by simp))
  | setVal a k v => exact trees_upd_apart ho (hb a rfl)
  | emplace a k => exact trees_upd_apart ho (hb a rfl)
  | clear a k => exact trees_upd_apart ho (hb a rfl)
  | reserve a k n => exact trees_upd_apart ho (hb a rfl)
  | resize a k n => exact trees_upd_apart ho (hb a rfl)
  | add a k => exact trees_upd_apart ho (hb a rfl)
  | reset a => exact trees_upd_apart ho (hb a rfl)

/-- C126, example: the last calls of `nodeOps` are made on the second message, the child of the first
one is apart from it. -/
example : target (MOp.setVal (V := Nat) ⟨1, [(2, 0)]⟩ 0 9) = some ⟨1, [(2, 0)]⟩ ∧
    Apart (⟨1, [(2, 0)]⟩ : MPath) ⟨1, [(2, 1)]⟩ := by
  refine ⟨rfl, fun _ => ?_⟩
  simp [List.prefix_cons_iff]

/-- C126, refuted: after `alias_from` two messages share the messages in them.  Setting the number of
the child of the second message changes the child of the first one. -/
theorem C126_alias_shares : ∀ f, let ops : List (MOp Nat) :=
      [.new 0, .emplace ⟨0, []⟩ 1, .setVal ⟨0, [(1, 0)]⟩ 0 5, .new 0, .alias ⟨1, []⟩ ⟨0, []⟩]
    readNum nodeType f ops ⟨0, [(1, 0)]⟩ = some 5 ∧
    readNum nodeType f (ops ++ [.setVal ⟨1, [(1, 0)]⟩ 0 6]) ⟨0, [(1, 0)]⟩ = some 6 := by
  intro f
  exact ⟨by with_unfolding_all rfl, by with_unfolding_all rfl⟩

/-- C126, refuted: a list that grows moves its elements, so what is set through a reference to an
element from before is lost: 8 is stored, and the element still has 5. -/
theorem C126_stale_reference : ∃ (s s' : MState Nat) (b r : Nat) (m : MMem Nat) (b' r' : Nat),
    MState.init.run nodeType 0 [.new 0, .resize ⟨0, []⟩ 2 1, .setVal ⟨0, [(2, 0)]⟩ 0 5] = .ok s ∧
    s.find nodeType ⟨0, [(2, 0)]⟩ = some (0, b, r) ∧
    s.step nodeType 0 (.add ⟨0, []⟩ 2) = .ok s' ∧
    setSlot s'.mem b r 0 (.val 8) = .ok m ∧
    MState.find nodeType { s' with mem := m } ⟨0, [(2, 0)]⟩ = some (0, b', r') ∧
    getSlot m b' r' 0 = .ok (.val 5) := by
  refine ⟨_, _, _, _, _, _, _, by with_unfolding_all rfl, by with_unfolding_all rfl,
    by with_unfolding_all rfl, by with_unfolding_all rfl, by with_unfolding_all rfl,
    by with_unfolding_all rfl⟩

end HppProto.Props
