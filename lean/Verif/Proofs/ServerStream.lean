import Verif.Spec.ServerStream
import Verif.Proofs.ClientStream
/-! Server-side streams: the buffers hold what the rules say. -/
namespace HppProto
open Spec Props

section
variable {M : Method} {C : Cfg} {T : StreamTypes}

theorem server_run_append (es fs : List ServerStep) (s : ServerCall) :
    s.run M C T (es ++ fs) = (s.run M C T es >>= fun s => s.run M C T fs) := by
  induction es generalizing s with
  | nil => rfl
  | cons e es ih =>
    show (s.step M C T e >>= fun s => s.run M C T (es ++ fs)) = ((s.step M C T e >>= fun s => s.run M C T es) >>= fun s => s.run M C T fs)
    cases h : s.step M C T e with
    | ok s' => exact ih s'
    | _ => rfl

theorem serverPos_append (es fs : List ServerStep) (s : ServerPos) :
    serverPos M C T (es ++ fs) s = (serverPos M C T es s).bind (serverPos M C T fs) := by
  induction es generalizing s with
  | nil => rfl
  | cons e es ih =>
    show (s.next M C T e).bind (serverPos M C T (es ++ fs)) = ((s.next M C T e).bind (serverPos M C T es)).bind (serverPos M C T fs)
    cases s.next M C T e with
    | none => rfl
    | some s' => exact ih s'

/-- The message that is in the buffer, not yet taken. -/
def waiting (p : ServerPos) (s : ServerCall) : List (List Byte) := if p.unsent then [s.response.flatten] else []

/-- What the steps so far have led to: `reps` are the encodings so far, `reqs` the requests, `new` says that the last one is still there, and
`bad` that a write failed. -/
structure ServerInv (M : Method) (q : Packet) (p : ServerPos) (s : ServerCall) (reps : List (List Byte)) (reqs : List Packet) (new : Bool)
    (bad : Prop) : Prop where
  alive : s.alive = !p.over
  unsent : p.unsent = true → p.writing = true ∨ p.finished = true
  empty : M.serverStreaming = false → p.finished = false → s.response = []
  sent : (s.taken.map List.flatten ++ waiting p s).Sublist reps
  all : ¬ bad → s.taken.map List.flatten ++ waiting p s = reps
  count : p.tokens = reqs.length
  only : M.clientStreaming = false → p.reading = false ∧ reqs = [q] ∧ s.request = q
  reading : p.reading = true → new = false
  last : new = true → reqs.getLast? = some s.request

/-- A write has failed. -/
def writeFailed (es : List ServerStep) : Prop := ServerStep.grpc (.wrote false) ∈ es

/-- One step. -/
theorem server_step (hN : numbersOk C) (hC : noClosedOneof C) {q : Packet} {p p' : ServerPos} {s : ServerCall} {reps reqs new bad} {e : ServerStep}
    (hi : ServerInv M q p s reps reqs new bad)
    (hl : ∀ m ∈ replyMsgs [e], (wire C T.resLimit T.resId m).length < 2 ^ 64)
    (h : p.next M C T e = some p') :
    ∃ s', s.step M C T e = .ok s' ∧
      ServerInv M q p' s' (reps ++ sendsNow M C T e) (reqs ++ brings e) (stillThere new [e]) (bad ∨ writeFailed [e]) ∧
      s'.asks = s.asks ++ dueStep M C T e ∧
      s'.got = s.got ++ (match e with | .handler (.get _ into) => [unaryOutcome C T.reqLimit T.reqId into .ok s.request] | _ => []) := by
  obtain ⟨h1, h2, h3, h4, h5, h6, h7, h8, h9⟩ := hi
  cases e with
  | handler a =>
    have hb : ¬ (bad ∨ writeFailed [ServerStep.handler a]) → ¬ bad := fun h hb => h (.inl hb)
    have idle : p.writing = false → p.finished = false → p.unsent = false := by
      intro hw hf
      cases hu : p.unsent with
      | false => rfl
      | true => rcases h2 hu with h | h <;> simp_all
    cases a with
    | startRead =>
      simp only [ServerPos.next] at h
      split at h
      · rename_i hm
        simp only [Bool.and_eq_true, Bool.not_eq_true'] at hm
        cases h
        refine ⟨{ s with asks := s.asks ++ [.startRead] }, by simp only [ServerCall.step, h1, hm.2, Bool.not_false, if_true, ServerCall.act],
          ⟨h1, h2, h3, ?_, ?_, ?_, ?_, ?_, ?_⟩, rfl, by simp⟩
        · simpa [sendsNow, waiting] using h4
        · intro hx; simpa [sendsNow, waiting] using h5 (hb hx)
        · simpa [brings] using h6
        · intro hc; rw [hm.1.1.1] at hc; cases hc
        · intro _; rfl
        · intro hx; cases hx
      · cases h
    | write m =>
      simp only [ServerPos.next] at h
      split at h
      · rename_i hm
        simp only [Bool.and_eq_true, Bool.not_eq_true'] at hm
        have hu := idle hm.1.1.2 hm.1.2
        have hw : waiting p s = [] := by simp [waiting, hu]
        rw [hw, List.append_nil] at h4 h5
        rcases put_any hN (hl m (by simp [replyMsgs])) s.response with ⟨b, bs, e1, e2, e3⟩ | ⟨e1, e2⟩
        · rw [e1] at h
          cases h
          refine ⟨{ s with response := bs, asks := s.asks ++ [.startWrite] }, ?_,
            ⟨h1, fun _ => .inl rfl, fun hc => ?_, ?_, fun hx => ?_, ?_, ?_, h8, ?_⟩, by simp [dueStep, e1], by simp⟩
          · simp only [ServerCall.step, h1, hm.2, Bool.not_false, if_true, ServerCall.act, ServerCall.write]
            rw [e2]; rfl
          · rw [hm.1.1.1] at hc; cases hc
          · simp only [waiting, if_true, e3, sendsNow, e1, Option.toList]
            exact h4.append_right _
          · simp only [waiting, if_true, e3, sendsNow, e1, Option.toList]
            rw [h5 (hb hx)]
          · simpa [brings] using h6
          · simpa [brings] using h7
          · simpa [brings, stillThere] using h9
        · rw [e1] at h
          cases h
          refine ⟨{ s with asks := s.asks ++ [.finish .internal] }, ?_,
            ⟨h1, fun _ => .inr rfl, fun hc => ?_, ?_, fun hx => ?_, ?_, ?_, h8, ?_⟩, by simp [dueStep, e1], by simp⟩
          · simp only [ServerCall.step, h1, hm.2, Bool.not_false, if_true, ServerCall.act, ServerCall.write]
            rw [e2]; rfl
          · rw [hm.1.1.1] at hc; cases hc
          · simpa [waiting, hu, sendsNow, e1] using h4
          · simpa [waiting, hu, sendsNow, e1] using h5 (hb hx)
          · simpa [brings] using h6
          · simpa [brings] using h7
          · simpa [brings, stillThere] using h9
      · cases h
    | writeRaw b =>
      simp only [ServerPos.next] at h
      split at h
      · rename_i hm
        simp only [Bool.and_eq_true, Bool.not_eq_true'] at hm
        have hu := idle hm.1.1.2 hm.1.2
        have hw : waiting p s = [] := by simp [waiting, hu]
        rw [hw, List.append_nil] at h4 h5
        cases h
        refine ⟨{ s with response := b, asks := s.asks ++ [.startWrite] }, ?_,
          ⟨h1, fun _ => .inl rfl, fun hc => ?_, ?_, fun hx => ?_, ?_, ?_, h8, ?_⟩, by simp [dueStep], by simp⟩
        · simp only [ServerCall.step, h1, hm.2, Bool.not_false, if_true, ServerCall.act]
        · rw [hm.1.1.1] at hc; cases hc
        · simp only [waiting, if_true, sendsNow]
          exact h4.append_right _
        · simp only [waiting, if_true, sendsNow]
          rw [h5 (hb hx)]
        · simpa [brings] using h6
        · simpa [brings] using h7
        · simpa [brings, stillThere] using h9
      · cases h
    | finish st =>
      simp only [ServerPos.next] at h
      split at h
      · rename_i hm
        simp only [Bool.and_eq_true, Bool.not_eq_true'] at hm
        have hu := idle hm.1.1 hm.1.2
        have hw : waiting p s = [] := by simp [waiting, hu]
        rw [hw, List.append_nil] at h4 h5
        cases h
        refine ⟨{ s with asks := s.asks ++ [.finish st] }, ?_,
          ⟨h1, fun _ => .inr rfl, (fun _ hf => nomatch hf), ?_, fun hx => ?_, ?_, ?_, h8, ?_⟩, by simp [dueStep], by simp⟩
        · simp only [ServerCall.step, h1, hm.2, Bool.not_false, if_true, ServerCall.act]
        · simp only [waiting, sendsNow]
          split
          · rename_i hs
            simp only [Bool.and_eq_true, Bool.not_eq_true'] at hs
            rw [h3 hs.1 hm.1.2]
            exact h4.append_right _
          · simpa using h4
        · simp only [waiting, sendsNow]
          split
          · rename_i hs
            simp only [Bool.and_eq_true, Bool.not_eq_true'] at hs
            rw [h3 hs.1 hm.1.2, h5 (hb hx)]; rfl
          · simpa using h5 (hb hx)
        · simpa [brings] using h6
        · simpa [brings] using h7
        · simpa [brings, stillThere] using h9
      · cases h
    | finishReply m st =>
      simp only [ServerPos.next] at h
      split at h
      · rename_i hm
        simp only [Bool.and_eq_true, Bool.or_eq_true, Bool.not_eq_true'] at hm
        have hu := idle hm.1.1.1 hm.1.1.2
        have hw : waiting p s = [] := by simp [waiting, hu]
        have hst : finishStatus M st = st := by
          unfold finishStatus
          split
          · rename_i hx
            simp only [Bool.and_eq_true, Bool.not_eq_true'] at hx
            rcases hm.2 with (h | h) | h
            · rw [hx.1] at h; cases h
            · rw [hx.2] at h; cases h
            · exact (beq_iff_eq.1 h).symm
          · rfl
        rw [hw, List.append_nil] at h4 h5
        rcases put_any hN (hl m (by simp [replyMsgs])) s.response with ⟨b, bs, e1, e2, e3⟩ | ⟨e1, e2⟩
        · rw [e1] at h
          cases h
          refine ⟨{ s with response := bs, asks := s.asks ++ [lastAsk M st] }, ?_,
            ⟨h1, fun _ => .inr rfl, (fun _ hf => nomatch hf), ?_, fun hx => ?_, ?_, ?_, h8, ?_⟩, by simp [dueStep, e1, lastAsk], by simp⟩
          · simp only [ServerCall.step, h1, hm.1.2, Bool.not_false, if_true, ServerCall.act, ServerCall.finishReply]
            rw [e2, hst]; rfl
          · simp only [waiting, e3, sendsNow, e1, Option.toList]
            exact h4.append_right _
          · simp only [waiting, e3, sendsNow, e1, Option.toList]
            rw [h5 (hb hx)]
          · simpa [brings] using h6
          · simpa [brings] using h7
          · simpa [brings, stillThere] using h9
        · rw [e1] at h
          cases h
          refine ⟨{ s with asks := s.asks ++ [.finish .internal] }, ?_,
            ⟨h1, fun _ => .inr rfl, (fun _ hf => nomatch hf), ?_, fun hx => ?_, ?_, ?_, h8, ?_⟩, by simp [dueStep, e1], by simp⟩
          · simp only [ServerCall.step, h1, hm.1.2, Bool.not_false, if_true, ServerCall.act, ServerCall.finishReply]
            rw [e2]; rfl
          · simpa [waiting, hu, sendsNow, e1] using h4
          · simpa [waiting, hu, sendsNow, e1] using h5 (hb hx)
          · simpa [brings] using h6
          · simpa [brings] using h7
          · simpa [brings, stillThere] using h9
      · cases h
    | finishRaw b st =>
      simp only [ServerPos.next] at h
      split at h
      · rename_i hm
        simp only [Bool.and_eq_true, Bool.not_eq_true'] at hm
        have hu := idle hm.1.1 hm.1.2
        have hw : waiting p s = [] := by simp [waiting, hu]
        rw [hw, List.append_nil] at h4 h5
        cases h
        refine ⟨{ s with response := b, asks := s.asks ++ [lastAsk M st] }, ?_,
          ⟨h1, fun _ => .inr rfl, (fun _ hf => nomatch hf), ?_, fun hx => ?_, ?_, ?_, h8, ?_⟩, by simp [dueStep, lastAsk], by simp⟩
        · simp only [ServerCall.step, h1, hm.2, Bool.not_false, if_true, ServerCall.act]
        · simp only [waiting, sendsNow]
          exact h4.append_right _
        · simp only [waiting, sendsNow]
          rw [h5 (hb hx)]
        · simpa [brings] using h6
        · simpa [brings] using h7
        · simpa [brings, stillThere] using h9
      · cases h
    | get k into =>
      simp only [ServerPos.next] at h
      split at h
      · rename_i hm
        simp only [Bool.and_eq_true, Bool.not_eq_true'] at hm
        cases h
        refine ⟨{ s with got := s.got ++ [unaryOutcome C T.reqLimit T.reqId into .ok s.request] }, ?_,
          ⟨h1, h2, h3, ?_, fun hx => ?_, ?_, ?_, h8, ?_⟩, by simp [dueStep], rfl⟩
        · simp only [ServerCall.step, h1, hm.2, Bool.not_false, if_true, ServerCall.act, ServerCall.get]
          rw [get_outcome C hC]; rfl
        · simpa [sendsNow, waiting] using h4
        · simpa [sendsNow, waiting] using h5 (hb hx)
        · simpa [brings] using h6
        · simpa [brings] using h7
        · simpa [brings, stillThere] using h9
      · cases h
  | grpc a =>
    have hb : ¬ (bad ∨ writeFailed [ServerStep.grpc a]) → ¬ bad := fun h hb => h (.inl hb)
    have hr : reps ++ sendsNow M C T (.grpc a) = reps := by simp [sendsNow]
    rw [hr]
    cases a with
    | take =>
      simp only [ServerPos.next] at h
      split at h
      · rename_i hm
        simp only [Bool.and_eq_true, Bool.not_eq_true'] at hm
        cases h
        have hp : waiting p s = [s.response.flatten] := by simp [waiting, hm.1]
        refine ⟨_, rfl, ⟨h1, fun h => by simp at h, h3, ?_, fun hx => ?_, ?_, ?_, h8, ?_⟩, by simp [dueStep], by simp⟩
        · rw [hp] at h4
          simpa [waiting] using h4
        · have := h5 (hb hx)
          rw [hp] at this
          simpa [waiting] using this
        · simpa [brings] using h6
        · simpa [brings] using h7
        · simpa [brings, stillThere] using h9
      · cases h
    | wrote ok =>
      simp only [ServerPos.next] at h
      split at h
      · rename_i hm
        simp only [Bool.and_eq_true, Bool.or_eq_true, Bool.not_eq_true'] at hm
        cases h
        refine ⟨_, rfl, ⟨h1, fun h => by simp at h, h3, ?_, fun hx => ?_, ?_, ?_, h8, ?_⟩, by simp [dueStep], by simp⟩
        · simp only [waiting, Bool.false_eq_true, if_false, List.append_nil]
          exact (List.sublist_append_left _ _).trans h4
        · have hok : p.unsent = false := by
            rcases hm.2 with h | h
            · exact absurd (.inr (by simp [writeFailed, h])) hx
            · exact h
          have := h5 (hb hx)
          simpa [waiting, hok] using this
        · simpa [brings] using h6
        · simpa [brings] using h7
        · simpa [brings, stillThere] using h9
      · cases h
    | read ok r =>
      simp only [ServerPos.next] at h
      split at h
      · rename_i hm
        cases h
        have hc : M.clientStreaming = true := by
          cases hc : M.clientStreaming with
          | true => rfl
          | false => have := (h7 hc).1; rw [hm] at this; cases this
        refine ⟨_, rfl, ⟨h1, h2, h3, h4, fun hx => h5 (hb hx), ?_, ?_, ?_, ?_⟩, by simp [dueStep], by simp⟩
        · cases ok <;> simp [brings, h6]
        · intro hx; rw [hc] at hx; cases hx
        · intro hx; cases hx
        · cases ok with
          | true => simp [brings]
          | false =>
            intro hx
            simp only [stillThere] at hx
            rw [h8 hm] at hx; cases hx
      · cases h
    | done =>
      simp only [ServerPos.next] at h
      split at h
      · rename_i hm
        cases h
        refine ⟨_, rfl, ⟨rfl, h2, h3, h4, fun hx => h5 (hb hx), ?_, ?_, h8, ?_⟩, by simp [dueStep], by simp⟩
        · simpa [brings] using h6
        · simpa [brings] using h7
        · simpa [brings, stillThere] using h9
      · cases h

theorem replyMsgs_cons (e : ServerStep) (es : List ServerStep) : replyMsgs (e :: es) = replyMsgs [e] ++ replyMsgs es := by
  cases e with
  | handler a => cases a <;> simp [replyMsgs]
  | grpc a => rfl

theorem stillThere_cons (b : Bool) (e : ServerStep) (es : List ServerStep) : stillThere b (e :: es) = stillThere (stillThere b [e]) es := by
  cases e with
  | handler a => cases a <;> rfl
  | grpc a =>
    cases a with
    | read ok p => cases ok <;> rfl
    | _ => rfl

/-- All steps. -/
theorem server_run (hN : numbersOk C) (hC : noClosedOneof C) {q : Packet} : ∀ (es : List ServerStep) {p p' : ServerPos} {s : ServerCall} {reps reqs new bad},
    ServerInv M q p s reps reqs new bad →
    (∀ m ∈ replyMsgs es, (wire C T.resLimit T.resId m).length < 2 ^ 64) →
    serverPos M C T es p = some p' →
    ∃ s', s.run M C T es = .ok s' ∧
      ServerInv M q p' s' (reps ++ es.flatMap (sendsNow M C T)) (reqs ++ es.flatMap brings) (stillThere new es) (bad ∨ writeFailed es) ∧
      s'.asks = s.asks ++ es.flatMap (dueStep M C T)
  | [], p, p', s, reps, reqs, new, bad, hi, _, h => by
    cases h
    refine ⟨s, rfl, ?_, by simp⟩
    simp only [List.flatMap_nil, List.append_nil]
    exact ⟨hi.alive, hi.unsent, hi.empty, hi.sent, fun hx => hi.all (fun h => hx (.inl h)), hi.count, hi.only, hi.reading, hi.last⟩
  | e :: es, p, p', s, reps, reqs, new, bad, hi, hl, h => by
    rw [replyMsgs_cons] at hl
    rw [serverPos, Option.bind_eq_some_iff] at h
    obtain ⟨p1, h1, h2⟩ := h
    obtain ⟨s1, r1, i1, c1, -⟩ := server_step hN hC hi (fun x hx => hl x (List.mem_append_left _ hx)) h1
    obtain ⟨s2, r2, i2, c2⟩ := server_run hN hC es i1 (fun x hx => hl x (List.mem_append_right _ hx)) h2
    refine ⟨s2, by rw [ServerCall.run, r1]; exact r2, ?_, by rw [c2, c1]; simp⟩
    rw [stillThere_cons, List.flatMap_cons, List.flatMap_cons, ← List.append_assoc, ← List.append_assoc]
    refine ⟨i2.alive, i2.unsent, i2.empty, i2.sent, fun hx => i2.all (fun h => hx ?_), i2.count, i2.only, i2.reading, i2.last⟩
    rcases h with (h | h) | h
    · exact .inl h
    · exact .inr (by rw [writeFailed, List.mem_singleton] at h; rw [writeFailed, h]; exact List.mem_cons_self)
    · exact .inr (List.mem_cons_of_mem _ h)

/-- A new reactor; `q` is the request of a method without client streaming. -/
theorem server_start (q : Packet) : ServerInv M q (serverStart M) { request := q } [] (if M.clientStreaming then [] else [q]) (!M.clientStreaming) False := by
  refine ⟨rfl, fun h => by simp [serverStart] at h, fun _ _ => rfl, List.Sublist.refl _, fun _ => rfl, ?_, fun h => ?_, fun h => by simp [serverStart] at h, fun h => ?_⟩
  · simp only [serverStart]; split <;> rfl
  · simp [serverStart, h]
  · simp only [Bool.not_eq_true'] at h; simp [h]

end
end HppProto
