import Verif.Spec.JsonInput
import Verif.Proofs.PrintFlag
import Verif.Props.GenJson

/-!
# C144, C145: what `read_json` takes as text, and which option `write_json` uses

`JsonInput.Carries` (`Verif/Spec/JsonInput.lean`): the text that a string holds. `inForce` (`Verif/Spec/PrintFlag.lean`): the option of
the innermost `write_json` that a thread is in.
-/

namespace HppProto.Props
open HppProto.Json

variable {T : GTypes} {G : Glaze} {utf8 : List Byte → Bool}

/-! ## C144: kinds of strings -/

/-- The full claim of C144: whatever kind of string a text is given in, what is read is the text. -/
def C144_statement : Prop :=
  ∀ (T : GTypes) (G : Glaze) (utf8 : List Byte → Bool), G.Lawful → (∀ id, (T id).Ok T) →
    ∀ (input : JsonInput) (t : List Byte) (d id : Nat) (old : Msg), input.Carries t →
      readInput T utf8 G d id old input = genRead T utf8 G d id old t

theorem view_carries {input : JsonInput} {t : List Byte} (c : input.Carries t) (s : input.Snug t) : input.view = .ok t := by
  cases input with
  | array cs =>
    obtain ⟨_, rest, rfl⟩ := c
    have : rest = [] := by
      simp only [JsonInput.Snug, List.length_append, List.length_cons] at s
      exact List.eq_nil_of_length_eq_zero (by omega)
    subst this
    simp [JsonInput.view]
  | pointer mem =>
    obtain ⟨h, rest, rfl⟩ := c
    have : (t ++ (0 : Byte) :: rest).takeWhile (· != 0) = t := by
      rw [List.takeWhile_append_of_pos (by intro a ha; simp only [bne_iff_ne]; exact fun e => h (e ▸ ha))]
      simp
    have zero : (0 : Byte) ∈ t ++ (0 : Byte) :: rest := List.mem_append_right _ List.mem_cons_self
    simp only [JsonInput.view, if_pos zero, this]
  | string cs => cases c; rfl
  | range cs => cases c; rfl

/-- C144, for arrays that the text fills. Whatever kind of string a text is given in, what is read is the text. -/
theorem C144_text_partial {input : JsonInput} {t : List Byte} (c : input.Carries t) (s : input.Snug t) (d id : Nat) (old : Msg) :
    readInput T utf8 G d id old input = genRead T utf8 G d id old t := by
  unfold readInput
  rw [view_carries c s]
  rfl

/-- C144, for arrays that the text fills. Every JSON text of a message, in every kind of string, is read as this message, also by
the overload that returns it. -/
theorem C144_reads_partial (L : G.Lawful) (hT : ∀ id, (T id).Ok T) {d id : Nat} {m : Msg} {j : JTree} {t : List Byte}
    (form : GFormAt T G utf8 genAnyStyle d id m j) (text : JsonText j t) {input : JsonInput} (c : input.Carries t) (s : input.Snug t)
    (old : Msg) : readInput T utf8 G d id old input = .ok m ∧ readNew T utf8 G d id input = .ok m := by
  constructor
  · rw [C144_text_partial c s]; exact C91_reads L hT form text old
  · rw [readNew, C144_text_partial c s]; exact C91_reads L hT form text _

/-- C144. Whatever is given, unless it is a pointer to something that does not end, the call succeeds or reports an
error. -/
theorem C144_defined (L : G.Lawful) (hT : ∀ id, (T id).Ok T) (noAny : ∀ id, (T id).wk ≠ .any) (d id : Nat) (old : Msg)
    (input : JsonInput) (ok : ¬ input.Unterminated) (room : ∀ t, input.view = .ok t → t.length < d) :
    (∃ m, readInput T utf8 G d id old input = .ok m) ∨ ∃ e, readInput T utf8 G d id old input = .err e := by
  have view : (∃ t, input.view = .ok t) ∨ ∃ e, input.view = .err e := by
    cases input with
    | array cs =>
      simp only [JsonInput.view]
      split
      · exact .inl ⟨_, rfl⟩
      · split
        · exact .inl ⟨_, rfl⟩
        · exact .inr ⟨_, rfl⟩
    | pointer mem =>
      cases mem with
      | none => exact .inr ⟨_, rfl⟩
      | some mem =>
        have : (0 : Byte) ∈ mem := Decidable.of_not_not ok
        exact .inl ⟨_, by simp only [JsonInput.view, if_pos this]; rfl⟩
    | string cs => exact .inl ⟨_, rfl⟩
    | range cs => exact .inl ⟨_, rfl⟩
  unfold readInput
  rcases view with ⟨t, h⟩ | ⟨e, h⟩
  · rw [h]; exact C94_defined L hT noAny d id old t (room t h)
  · rw [h]; exact .inr ⟨e, rfl⟩

/-- C144. A null pointer, and an array that does not end with a zero, are errors, whatever the array holds. -/
theorem C144_refused (d id : Nat) (old : Msg) :
    readInput T utf8 G d id old (.pointer none) = .err .badMessage ∧
    ∀ cs : List Byte, (∃ c, cs.getLast? = some c ∧ c ≠ 0) → readInput T utf8 G d id old (.array cs) = .err .badMessage := by
  refine ⟨rfl, ?_⟩
  rintro cs ⟨c, h, hc⟩
  have h1 : cs ≠ [] := by rintro rfl; cases h
  have h2 : cs.getLast? ≠ some 0 := by rw [h]; intro e; cases e; exact hc rfl
  simp only [readInput, JsonInput.view, if_neg h1, if_neg h2]
  rfl

/-- A buffer of four characters that holds `{}`. -/
def roomyBuffer : List Byte := [0x7b, 0x7d, 0, 0]

/-- The full claim fails: JSON in an array that is longer than the text is refused, while a pointer to the same array is read. -/
theorem C144_statement_false : ¬ C144_statement := by
  intro h
  have h1 := h genTypes refGlaze (fun _ => true) refGlaze_lawful genTypes_ok (.array roomyBuffer) [0x7b, 0x7d] 1 0 genExample
    ⟨by decide, [0], rfl⟩
  have h2 : readInput genTypes (fun _ => true) refGlaze 1 0 genExample (.array roomyBuffer) = .err .badMessage := by
    with_unfolding_all rfl
  have h3 : genRead genTypes (fun _ => true) refGlaze 1 0 genExample [0x7b, 0x7d] = .ok (genTypes 0).default := by
    with_unfolding_all rfl
  rw [h2, h3] at h1
  cases h1

example : readInput genTypes (fun _ => true) refGlaze 1 0 genExample (.pointer (some roomyBuffer)) = .ok (genTypes 0).default := by
  with_unfolding_all rfl

/-- The hypotheses of `C144_reads_partial` are met by a literal, a pointer into a larger buffer, a string and a view. -/
example {t : List Byte} (h : JsonText (.obj [(⟨b!"born_at", true⟩, .null), (⟨b!"color", true⟩, .num b!"3"), (⟨b!"anon", true⟩, .null),
    (⟨b!"age", true⟩, .num b!"-5")]) t) (zero : (0 : Byte) ∉ t) (rest : List Byte) :
    ∀ input ∈ [JsonInput.array (t ++ [0]), .pointer (some (t ++ 0 :: rest)), .string t, .range t],
      readNew genTypes (fun _ => true) refGlaze 1 0 input =
        .ok ⟨[[(0, .num (-5))], [], [(0, .num 3)], [], [], [], [], [], []], []⟩ := by
  intro input hi
  have c : input.Carries t ∧ input.Snug t := by
    simp only [List.mem_cons, List.not_mem_nil, or_false] at hi
    rcases hi with rfl | rfl | rfl | rfl
    · exact ⟨⟨zero, [], rfl⟩, by simp [JsonInput.Snug]⟩
    · exact ⟨⟨zero, rest, rfl⟩, trivial⟩
    · exact ⟨rfl, trivial⟩
    · exact ⟨rfl, trivial⟩
  exact (C144_reads_partial refGlaze_lawful genTypes_ok (genSmall_form refGlaze 0) h c.1 c.2 genExample).2

example : readNew genTypes (fun _ => true) refGlaze 1 0 (.array b!"{\"age\":-5}\u0000") =
    .ok ⟨[[(0, .num (-5))], [], [], [], [], [], [], [], []], []⟩ := by
  with_unfolding_all rfl

/-! ## C145: the option of the thread's own call -/

/-- C145. In every history of calls of `write_json` on any threads, nested or not, returning or left by an exception, every member
is asked with the option of the innermost call of its own thread. -/
theorem C145_option (hs : List (Nat × FlagStep)) : (FlagWorld.start.run hs).2 = dueLooks [] hs :=
  (flagWorld_run [] hs _ flagWorld_start).2

/-- C145. While a call with option `o` goes on in a thread, whatever the other threads do, and after any calls inside of it have
ended, a member is asked with `o`. -/
theorem C145_own (before during : List (Nat × FlagStep)) (i : Nat) (o : Bool) (b : Balanced (stepsOf i during)) :
    ((FlagWorld.start.run (before ++ (i, .enter o) :: during)).1 i).flag = o := by
  have h := (flagWorld_run [] (before ++ (i, .enter o) :: during) _ flagWorld_start).1 i
  rw [List.nil_append, openCalls_append, openCalls, if_pos rfl] at h
  rw [openCalls_eq, openCalls_balanced b] at h
  exact (List.cons.inj h).1

/-- C145. Once all calls of a thread have ended, its flag is as at the start: writing with glaze itself leaves default values out. -/
theorem C145_restored (hs : List (Nat × FlagStep)) (i : Nat) (b : Balanced (stepsOf i hs)) :
    (FlagWorld.start.run hs).1 i = {} := by
  have h := (flagWorld_run [] hs _ flagWorld_start).1 i
  rw [List.nil_append, openCalls_eq, openCalls_balanced b] at h
  unfold FlagInv at h
  cases ht : (FlagWorld.start.run hs).1 i with
  | mk f g =>
    rw [ht] at h
    simp only [List.nil_append, List.cons.injEq] at h
    rw [h.1, h.2]

/-- Two threads, the second with a call inside of a call. -/
def flagHistory : List (Nat × FlagStep) :=
  [(1, .enter true), (2, .enter false), (2, .enter true), (1, .look), (2, .look), (2, .leave), (2, .look), (1, .look), (1, .leave),
    (1, .look), (2, .leave)]

example : (FlagWorld.start.run flagHistory).2 = [true, true, false, true, false] := by decide

/-- The hypotheses of `C145_own` and `C145_restored` are met. -/
example : Balanced (stepsOf 2 flagHistory) :=
  .call false (.call true (.look .nil) (.look .nil)) .nil

example : Balanced (stepsOf 1 (flagHistory.drop 1 |>.take 6)) := .look .nil

end HppProto.Props
