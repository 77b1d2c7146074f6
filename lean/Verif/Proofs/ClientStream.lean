import Verif.Spec.ClientStream
import Verif.Props.Grpc
/-! Client-side streams: the reactor follows the rules. -/
namespace HppProto
open Spec Props

/-- Writing to a buffer that holds another message. -/
theorem put_any {C : Cfg} (hN : numbersOk C) {limit id : Nat} {m : Msg} (hl : (wire C limit id m).length < 2 ^ 64) (buf : List (List Byte)) :
    (∃ b bs, encoding C limit id m = some b ∧ grpcPut C limit none id m buf = .ok (.ok, bs) ∧ bs.flatten = b) ∨
    (encoding C limit id m = none ∧ grpcPut C limit none id m buf = .ok (.internal, buf)) := by
  obtain ⟨h1, h2⟩ := C50_grpc C hN limit id m none buf hl
  obtain ⟨e, bytes, hw⟩ := C08_no_ub C hN limit id m true [] hl
  cases e with
  | none =>
    refine .inl ⟨bytes, if bytes = [] then [] else [bytes], by rw [encoding, hw], by rw [grpcPut, h1 [] bytes hw]; rfl, ?_⟩
    by_cases hb : bytes = []
    · rw [if_pos hb, hb]; rfl
    · rw [if_neg hb]; simp
  | some e =>
    obtain ⟨e', h⟩ := h2 [] bytes e hw
    exact .inr ⟨by rw [encoding, hw], by rw [grpcPut, h]; rfl⟩

section
variable {M : Method} {C : Cfg} {T : StreamTypes}

theorem run_append (es fs : List ClientStep) (s : StreamCall) :
    s.run M C T (es ++ fs) = (s.run M C T es >>= fun s => s.run M C T fs) := by
  induction es generalizing s with
  | nil => rfl
  | cons e es ih =>
    show (s.step M C T e >>= fun s => s.run M C T (es ++ fs)) = ((s.step M C T e >>= fun s => s.run M C T es) >>= fun s => s.run M C T fs)
    cases h : s.step M C T e with
    | ok s' => exact ih s'
    | _ => rfl

/-- The message that is in `request_`, not yet taken. -/
def pending (p : ClientPos) (s : StreamCall) : List (List Byte) := if p.unsent then [s.request.flatten] else []

/-- What the steps so far have led to: `reqs` are the encodings so far, `last` is what was received last, and `bad` says that a write failed. -/
structure StreamInv (M : Method) (p : ClientPos) (s : StreamCall) (reqs : List (List Byte)) (last : Option Packet) (bad : Prop) : Prop where
  created : s.created = p.made
  unsent : p.unsent = true → M.clientStreaming = true → p.writing = true
  unmade : p.made = false → reqs = []
  sent : (s.taken.map List.flatten ++ pending p s).Sublist reqs
  all : ¬ bad → s.taken.map List.flatten ++ pending p s = reqs
  last : ∀ q, last = some q → p.reading = false → s.response = q

/-- A write has failed. -/
def failed (es : List ClientStep) : Prop := ClientStep.grpc (.wrote false) ∈ es

theorem call_made {s : StreamCall} {c : ClientCall} (h : s.created = true) : s.call c = .ok { s with calls := s.calls ++ [c] } := by
  rw [StreamCall.call, if_pos h]

/-- One step. -/
theorem stream_step (hN : numbersOk C) (hC : noClosedOneof C) {p p' : ClientPos} {s : StreamCall} {reqs last bad} {e : ClientStep}
    (hi : StreamInv M p s reqs last bad)
    (hl : ∀ x ∈ messages M T [e], (wire C x.1 T.reqId x.2).length < 2 ^ 64) (hf : requestsFit M C T [e])
    (h : p.next M C T e = some p') :
    ∃ s', s.step M C T e = .ok s' ∧ StreamInv M p' s' (reqs ++ requests M C T [e]) (received M [e] last) (bad ∨ failed [e]) ∧
      s'.calls = s.calls ++ asked C T e := by
  obtain ⟨h1, h2, h3, h4, h5, h6⟩ := hi
  cases e with
  | user a =>
    have hb : ¬ (bad ∨ failed [ClientStep.user a]) → ¬ bad := fun h hb => h (.inl hb)
    cases a with
    | prepare m =>
      simp only [ClientPos.next, Bool.not_eq_true'] at h
      split at h
      · rename_i hm
        cases h
        have hr := h3 hm
        subst hr
        have hs := List.sublist_nil.1 h4
        have ht : s.taken.map List.flatten = [] := (List.append_eq_nil_iff.1 hs).1
        cases hcs : M.clientStreaming with
        | true =>
          refine ⟨{ s with created := true, calls := s.calls ++ [.create] }, by simp only [StreamCall.step, StreamCall.prepare, hcs, if_true], ⟨rfl, fun h => by simp at h, fun h => by simp at h, ?_, fun _ => ?_, h6⟩, rfl⟩
          · simp [ht, pending, requests, hcs]
          · simp [ht, pending, requests, hcs]
        | false =>
          rcases put_any hN (hl (100, m) (by simp [messages, hcs])) s.request with ⟨b, bs, e1, e2, e3⟩ | ⟨e1, -⟩
          · refine ⟨{ s with request := bs, created := true, calls := s.calls ++ [.create] }, ?_,
              ⟨rfl, (fun _ h => (by rw [hcs] at h; cases h)), fun h => by simp at h, ?_, fun _ => ?_, h6⟩, rfl⟩
            · simp only [StreamCall.step, StreamCall.prepare, hcs, Bool.false_eq_true, if_false]
              rw [e2]; rfl
            · simp [ht, pending, requests, hcs, e1, e3]
            · simp [ht, pending, requests, hcs, e1, e3]
          · have := hf hcs m (by simp)
            rw [e1] at this; cases this
      · cases h
    | startCall =>
      simp only [ClientPos.next] at h
      split at h
      · rename_i hm
        simp only [Bool.and_eq_true, Bool.not_eq_true'] at hm
        cases h
        have hr : reqs ++ requests M C T [.user .startCall] = reqs := by simp [requests]
        rw [hr]
        exact ⟨_, call_made (h1.trans hm.1.1), ⟨h1, h2, h3, h4, fun hx => h5 (hb hx), h6⟩, rfl⟩
      · cases h
    | startRead =>
      simp only [ClientPos.next] at h
      split at h
      · rename_i hm
        simp only [Bool.and_eq_true, Bool.not_eq_true'] at hm
        cases h
        have hr : reqs ++ requests M C T [.user .startRead] = reqs := by simp [requests]
        rw [hr]
        exact ⟨_, call_made (h1.trans hm.1.1.2), ⟨h1, h2, h3, h4, fun hx => h5 (hb hx), fun _ _ h => by simp at h⟩, rfl⟩
      · cases h
    | write m last' =>
      simp only [ClientPos.next] at h
      split at h
      · rename_i hcs
        rcases put_any hN (hl (T.reqLimit, m) (by simp [messages])) s.request with ⟨b, bs, e1, e2, e3⟩ | ⟨e1, e2⟩
        · rw [e1] at h
          simp only at h
          split at h
          · rename_i hm
            simp only [Bool.and_eq_true, Bool.not_eq_true'] at hm
            cases h
            have hu : p.unsent = false := by
              cases hu : p.unsent with
              | false => rfl
              | true => have := h2 hu hcs; rw [hm.1.1.2] at this; cases this
            have hp : pending p s = [] := by simp [pending, hu]
            rw [hp, List.append_nil] at h4 h5
            have hr : requests M C T [.user (.write m last')] = [b] := by simp [requests, e1]
            refine ⟨{ s with request := bs, calls := s.calls ++ [.startWrite last'], news := s.news ++ [.wrote .ok] }, ?_,
              ⟨h1, fun _ _ => rfl, fun h => ?_, ?_, fun hx => ?_, h6⟩, ?_⟩
            · simp only [StreamCall.step, StreamCall.write]
              rw [e2]
              show (do
                let s ← ({ s with request := bs } : StreamCall).call (.startWrite last')
                .ok { s with news := s.news ++ [.wrote .ok] } : Res StreamCall) = _
              rw [call_made (s := { s with request := bs }) (h1.trans hm.1.1.1)]
              rfl
            · rw [show p.made = true from hm.1.1.1] at h; cases h
            · rw [hr]
              simp only [pending, if_true, e3]
              exact h4.append_right _
            · rw [hr]
              simp only [pending, if_true, e3]
              rw [h5 (hb hx)]
            · simp [asked, e1]
          · cases h
        · rw [e1] at h
          cases h
          have hr : reqs ++ requests M C T [.user (.write m last')] = reqs := by simp [requests, e1]
          rw [hr]
          refine ⟨{ s with news := s.news ++ [.wrote .internal] }, ?_, ⟨h1, h2, h3, h4, fun hx => h5 (hb hx), h6⟩, ?_⟩
          · simp only [StreamCall.step, StreamCall.write]
            rw [e2]; rfl
          · simp [asked, e1]
      · cases h
    | writeDone =>
      simp only [ClientPos.next] at h
      split at h
      · rename_i hm
        simp only [Bool.and_eq_true, Bool.not_eq_true'] at hm
        cases h
        have hr : reqs ++ requests M C T [.user .writeDone] = reqs := by simp [requests]
        rw [hr]
        exact ⟨_, call_made (h1.trans hm.1.1.1.2), ⟨h1, fun _ _ => rfl, h3, h4, fun hx => h5 (hb hx), h6⟩, rfl⟩
      · cases h
    | hold n =>
      simp only [ClientPos.next] at h
      split at h
      · rename_i hm
        simp only [Bool.and_eq_true, Bool.not_eq_true'] at hm
        cases h
        have hr : reqs ++ requests M C T [.user (.hold n)] = reqs := by simp [requests]
        rw [hr]
        exact ⟨_, call_made (h1.trans hm.1), ⟨h1, h2, h3, h4, fun hx => h5 (hb hx), h6⟩, rfl⟩
      · cases h
    | unhold =>
      simp only [ClientPos.next] at h
      split at h
      · rename_i hm
        simp only [Bool.and_eq_true, Bool.not_eq_true'] at hm
        cases h
        have hr : reqs ++ requests M C T [.user .unhold] = reqs := by simp [requests]
        rw [hr]
        exact ⟨_, call_made (h1.trans hm.1.1), ⟨h1, h2, h3, h4, fun hx => h5 (hb hx), h6⟩, rfl⟩
      · cases h
    | get into =>
      simp only [ClientPos.next] at h
      split at h
      · cases h
        have hr : reqs ++ requests M C T [.user (.get into)] = reqs := by simp [requests]
        rw [hr]
        refine ⟨{ s with news := s.news ++ [.got (unaryOutcome C T.resLimit T.resId into .ok s.response).1
          (unaryOutcome C T.resLimit T.resId into .ok s.response).2] }, ?_, ⟨h1, h2, h3, h4, fun hx => h5 (hb hx), h6⟩, by simp [asked]⟩
        simp only [StreamCall.step, StreamCall.get]
        rw [get_outcome C hC]; rfl
      · cases h
  | grpc a =>
    have hr : reqs ++ requests M C T [.grpc a] = reqs := by cases a <;> simp [requests]
    rw [hr]
    have hb : ¬ (bad ∨ failed [ClientStep.grpc a]) → ¬ bad := fun h hb => h (.inl hb)
    cases a with
    | take =>
      simp only [ClientPos.next] at h
      split at h
      · rename_i hm
        simp only [Bool.and_eq_true, Bool.not_eq_true'] at hm
        cases h
        have hp : pending p s = [s.request.flatten] := by simp [pending, hm.1.2]
        refine ⟨_, rfl, ⟨h1, fun h => by simp at h, h3, ?_, fun hx => ?_, h6⟩, by simp [asked]⟩
        · rw [hp] at h4
          simpa [pending] using h4
        · have := h5 (hb hx)
          rw [hp] at this
          simpa [pending] using this
      · cases h
    | wrote ok =>
      simp only [ClientPos.next] at h
      split at h
      · rename_i hm
        simp only [Bool.and_eq_true, Bool.or_eq_true, Bool.not_eq_true'] at hm
        cases h
        refine ⟨_, rfl, ⟨h1, fun h => by simp at h, h3, ?_, fun hx => ?_, h6⟩, by simp [asked]⟩
        · simp only [pending, Bool.false_eq_true, if_false, List.append_nil]
          exact (List.sublist_append_left _ _).trans h4
        · have hok : p.unsent = false := by
            rcases hm.2 with h | h
            · exact absurd (.inr (by simp [failed, h])) hx
            · exact h
          have := h5 (hb hx)
          simpa [pending, hok] using this
      · cases h
    | closed ok =>
      simp only [ClientPos.next] at h
      split at h
      · rename_i hm
        simp only [Bool.and_eq_true, Bool.not_eq_true'] at hm
        cases h
        exact ⟨_, rfl, ⟨h1, (fun h => (by rw [show p.unsent = false from hm.2] at h; cases h)), h3, h4, fun hx => h5 (hb hx), h6⟩, by simp [asked]⟩
      · cases h
    | read ok q =>
      simp only [ClientPos.next] at h
      split at h
      · cases h
        refine ⟨_, rfl, ⟨h1, h2, h3, h4, fun hx => h5 (hb hx), fun q' hq _ => ?_⟩, by simp [asked]⟩
        cases ok with
        | true => exact Option.some.inj hq
        | false => cases hq
      · cases h
    | done st q =>
      simp only [ClientPos.next] at h
      split at h
      · cases h
        simp only [StreamCall.step, received]
        cases M.serverStreaming with
        | true => exact ⟨_, rfl, ⟨h1, h2, h3, h4, fun hx => h5 (hb hx), h6⟩, by simp [asked]⟩
        | false =>
          refine ⟨_, rfl, ⟨h1, h2, h3, h4, fun hx => h5 (hb hx), fun q' hq _ => ?_⟩, by simp [asked]⟩
          simp only [Bool.false_eq_true, if_false] at hq
          split at hq
          · exact Option.some.inj hq
          · cases hq
      · cases h

theorem requests_cons (e : ClientStep) (es : List ClientStep) : requests M C T (e :: es) = requests M C T [e] ++ requests M C T es := by
  cases e with
  | user a => cases a <;> simp [requests]
  | grpc a => rfl

theorem messages_cons (e : ClientStep) (es : List ClientStep) : messages M T (e :: es) = messages M T [e] ++ messages M T es := by
  cases e with
  | user a => cases a <;> simp [messages]; split <;> simp
  | grpc a => rfl

theorem received_cons (e : ClientStep) (es : List ClientStep) (p : Option Packet) :
    received M (e :: es) p = received M es (received M [e] p) := by
  cases e with
  | user a => rfl
  | grpc a => cases a <;> rfl

/-- All steps. -/
theorem stream_run (hN : numbersOk C) (hC : noClosedOneof C) : ∀ (es : List ClientStep) {p p' : ClientPos} {s : StreamCall} {reqs last bad},
    StreamInv M p s reqs last bad →
    (∀ x ∈ messages M T es, (wire C x.1 T.reqId x.2).length < 2 ^ 64) → requestsFit M C T es →
    clientPos M C T es p = some p' →
    ∃ s', s.run M C T es = .ok s' ∧ StreamInv M p' s' (reqs ++ requests M C T es) (received M es last) (bad ∨ failed es) ∧
      s'.calls = s.calls ++ es.flatMap (asked C T)
  | [], p, p', s, reqs, last, bad, hi, _, _, h => by
    cases h
    refine ⟨s, rfl, ?_, by simp⟩
    have hr : reqs ++ requests M C T [] = reqs := by simp [requests]
    rw [hr]
    exact ⟨hi.created, hi.unsent, hi.unmade, hi.sent, fun hx => hi.all (fun h => hx (.inl h)), hi.last⟩
  | e :: es, p, p', s, reqs, last, bad, hi, hl, hf, h => by
    rw [messages_cons] at hl
    rw [clientPos, Option.bind_eq_some_iff] at h
    obtain ⟨p1, h1, h2⟩ := h
    obtain ⟨s1, r1, i1, c1⟩ := stream_step hN hC hi (fun x hx => hl x (List.mem_append_left _ hx))
      (fun hc m hm => hf hc m (by rw [List.mem_singleton.1 hm]; exact List.mem_cons_self)) h1
    obtain ⟨s2, r2, i2, c2⟩ := stream_run hN hC es i1 (fun x hx => hl x (List.mem_append_right _ hx))
      (fun hc m hm => hf hc m (List.mem_cons_of_mem _ hm)) h2
    refine ⟨s2, by rw [StreamCall.run, r1]; exact r2, ?_, by rw [c2, c1]; simp⟩
    rw [requests_cons, received_cons, ← List.append_assoc]
    refine ⟨i2.created, i2.unsent, i2.unmade, i2.sent, fun hx => i2.all (fun h => hx ?_), i2.last⟩
    rcases h with (h | h) | h
    · exact .inl h
    · exact .inr (by rw [failed, List.mem_singleton] at h; rw [failed, h]; exact List.mem_cons_self)
    · exact .inr (List.mem_cons_of_mem _ h)

theorem stream_start : StreamInv M {} {} [] none False :=
  ⟨rfl, fun h => by simp at h, fun _ => rfl, List.Sublist.refl _, fun _ => rfl, fun _ h => by simp at h⟩

end
end HppProto
