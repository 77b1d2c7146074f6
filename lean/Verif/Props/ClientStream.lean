import Verif.Proofs.ClientStream
/-!
# Claims C129–C131: streams and blocking calls on the client side of gRPC

`StreamCall.run M C T es {}` (`Verif/Model/GrpcStream.lean`) is an RPC with a new reactor: `es` lists what the user and gRPC do, in any order.
`r.taken` is what gRPC took out of the reactor's buffer to send, `r.calls` are the calls into gRPC, and `r.news` is what the user was told.
`keepsRules`, `requests` and `received` (`Verif/Spec/ClientStream.lean`) know nothing of buffers.
-/
namespace HppProto.Props
open HppProto HppProto.Spec

/-! ## C129 -/

/-- C129. For every schedule in which the user and gRPC keep the rules, nothing undefined happens, gRPC is called exactly as asked, and
what gRPC sends are the encodings of the messages written, in order and none of them twice; as long as no write was reported to have failed
it is all of them, but for the last one as long as gRPC has not taken it. A message that cannot be encoded is left out and does no harm, even if
it is written while another one is in flight. Missing from the full claim: a method without client streaming whose request
cannot be encoded (`C129_bad_request`); closed-enum members of oneofs in the response, which make the reader throw (`C18_throws`). -/
theorem C129_sent_partial (M : Method) (C : Cfg) (hN : numbersOk C) (hC : noClosedOneof C) (T : StreamTypes) (es : List ClientStep)
    (hk : keepsRules M C T es) (hf : requestsFit M C T es)
    (hl : ∀ x ∈ messages M T es, (wire C x.1 T.reqId x.2).length < 2 ^ 64) :
    ∃ r, StreamCall.run M C T es {} = .ok r ∧ r.calls = es.flatMap (asked C T) ∧
      (r.taken.map List.flatten).Sublist (requests M C T es) ∧
      (ClientStep.grpc (.wrote false) ∉ es → ∀ p, clientPos M C T es {} = some p →
        r.taken.map List.flatten = if p.unsent then (requests M C T es).dropLast else requests M C T es) := by
  obtain ⟨p, hp⟩ := Option.isSome_iff_exists.1 hk
  obtain ⟨r, h1, h2, h3⟩ := stream_run hN hC es (stream_start (M := M)) hl hf hp
  rw [List.nil_append] at h2
  refine ⟨r, h1, by simpa using h3, (List.sublist_append_left _ _).trans h2.sent, fun hb p' hp' => ?_⟩
  rw [hp] at hp'
  cases hp'
  have := h2.all (by rintro (h | h); exact h; exact hb h)
  rw [← this, pending]
  cases p.unsent <;> simp

/-- C129. `write` returns OK exactly if the message can be encoded, and INTERNAL otherwise. -/
theorem C129_write_status (M : Method) (C : Cfg) (hN : numbersOk C) (T : StreamTypes) (s : StreamCall) (hs : s.created = true) (m : Msg) (last : Bool)
    (hl : (wire C T.reqLimit T.reqId m).length < 2 ^ 64) :
    ∃ r, s.step M C T (.user (.write m last)) = .ok r ∧
      r.news = s.news ++ [.wrote (if (encoding C T.reqLimit T.reqId m).isSome then .ok else .internal)] := by
  rcases put_any hN hl s.request with ⟨b, bs, e1, e2, e3⟩ | ⟨e1, e2⟩
  · refine ⟨{ s with request := bs, calls := s.calls ++ [.startWrite last], news := s.news ++ [.wrote .ok] }, ?_, by simp [e1]⟩
    simp only [StreamCall.step, StreamCall.write]
    rw [e2]
    show (do
      let s ← ({ s with request := bs } : StreamCall).call (.startWrite last)
      .ok { s with news := s.news ++ [.wrote .ok] } : Res StreamCall) = _
    rw [call_made (s := { s with request := bs }) hs]
    rfl
  · refine ⟨{ s with news := s.news ++ [.wrote .internal] }, ?_, by simp [e1]⟩
    simp only [StreamCall.step, StreamCall.write]
    rw [e2]; rfl

/-- C129 fails for a method without client streaming whose request cannot be encoded: `async_call` calls `OnDone` with INTERNAL and makes no
call, and returns nothing; `start_call()`, or `start_read()` before it, then uses a null pointer. -/
theorem C129_bad_request (M : Method) (hM : M.clientStreaming = false) (C : Cfg) (hN : numbersOk C) (T : StreamTypes) (req : Msg)
    (hl : (wire C 100 T.reqId req).length < 2 ^ 64) (hw : encoding C 100 T.reqId req = none) :
    (∃ r, StreamCall.run M C T [.user (.prepare req)] {} = .ok r ∧ r.calls = [] ∧ r.news = [.ended .internal]) ∧
    keepsRules M C T [.user (.prepare req), .user .startCall] ∧
    StreamCall.run M C T [.user (.prepare req), .user .startCall] {} = .ub ∧
    StreamCall.run M C T [.user (.prepare req), .user .startRead, .user .startCall] {} = .ub := by
  rcases put_any hN hl [] with ⟨b, bs, e1, -⟩ | ⟨-, e2⟩
  · rw [hw] at e1; cases e1
  · have hs : StreamCall.step M C T {} (.user (.prepare req)) = .ok { news := [.ended .internal] } := by
      simp only [StreamCall.step, StreamCall.prepare, hM, Bool.false_eq_true, if_false]
      rw [e2]; rfl
    refine ⟨⟨{ news := [.ended .internal] }, ?_, rfl, rfl⟩, ?_, ?_, ?_⟩
    · rw [StreamCall.run, hs]; rfl
    · rfl
    · rw [StreamCall.run, hs]; rfl
    · rw [StreamCall.run, hs]; rfl

/-- Requests and responses of type 0. -/
def demoTypes : StreamTypes := ⟨0, 100, 0, 100⟩

/-- A message whose string is not UTF-8. -/
def badMsg : Msg := ⟨[[(0, .num 0)], [(0, .bytes [0xff])], [], [], [], []], []⟩

/-- The message `i: n`. -/
def numMsg (n : BitVec 64) : Msg := ⟨[[(0, .num n)], [], [], [], [], []], []⟩

/-- Both ways: two messages, and one that cannot be encoded while the first is in flight; a reply is read. -/
def chat : List ClientStep :=
  [.user (.prepare (numMsg 0)), .user .startRead, .user (.write (numMsg 5) false), .user (.write badMsg false), .user .startCall, .grpc .take,
    .grpc (.wrote true), .grpc (.read true (.slices [[0x08], [0x07]])), .user (.write (numMsg 6) true), .user (.get (numMsg 1)), .grpc .take,
    .grpc (.wrote true), .grpc (.done .ok (.slices []))]

set_option maxRecDepth 100000 in
example : keepsRules ⟨true, true⟩ demoCfg demoTypes chat ∧ requestsFit ⟨true, true⟩ demoCfg demoTypes chat ∧
    requests ⟨true, true⟩ demoCfg demoTypes chat = [[0x08, 0x05], [0x08, 0x06]] ∧
    (∀ x ∈ messages ⟨true, true⟩ demoTypes chat, (wire demoCfg x.1 0 x.2).length < 2 ^ 64) ∧
    ∃ r, StreamCall.run ⟨true, true⟩ demoCfg demoTypes chat {} = .ok r ∧ r.taken = [[[0x08, 0x05]], [[0x08, 0x06]]] ∧
      r.news.length = 4 := by
  refine ⟨by with_unfolding_all rfl, (fun h => nomatch h), by decide +kernel, by decide +kernel, _, by with_unfolding_all rfl, by with_unfolding_all rfl, by with_unfolding_all rfl⟩

/-- Server streaming with a request that cannot be encoded. -/
example : encoding demoCfg 100 demoTypes.reqId badMsg = none ∧ (wire demoCfg 100 demoTypes.reqId badMsg).length < 2 ^ 64 :=
  ⟨by decide +kernel, by decide +kernel⟩

/-! ## C130 -/

/-- C130. Whenever `get_response` is called after a message was received, whatever else was done meanwhile, it reports OK and gives the message
that the bytes received last mean, or reports that they mean none (`unaryOutcome`); what the target held before does not
matter. Missing from the full claim: that OK is reported only if a message was received (`C130_nothing_received`). -/
theorem C130_received_partial (M : Method) (C : Cfg) (hN : numbersOk C) (hC : noClosedOneof C) (T : StreamTypes) (es : List ClientStep) (into : Msg)
    (hk : keepsRules M C T (es ++ [.user (.get into)])) (hf : requestsFit M C T es)
    (hl : ∀ x ∈ messages M T es, (wire C x.1 T.reqId x.2).length < 2 ^ 64) (p : Packet) (hp : received M es none = some p) :
    ∃ r, StreamCall.run M C T (es ++ [.user (.get into)]) {} = .ok r ∧
      r.news.getLast? = some (.got (unaryOutcome C T.resLimit T.resId into .ok p).1 (unaryOutcome C T.resLimit T.resId into .ok p).2) := by
  have split : ∀ (es fs : List ClientStep) (s : ClientPos), clientPos M C T (es ++ fs) s = (clientPos M C T es s).bind (clientPos M C T fs) := by
    intro es fs
    induction es with
    | nil => intro s; rfl
    | cons e es ih =>
      intro s
      show (s.next M C T e).bind (clientPos M C T (es ++ fs)) = ((s.next M C T e).bind (clientPos M C T es)).bind (clientPos M C T fs)
      cases s.next M C T e with
      | none => rfl
      | some s' => exact ih s'
  obtain ⟨p2, hk⟩ := Option.isSome_iff_exists.1 hk
  rw [split, Option.bind_eq_some_iff] at hk
  obtain ⟨p1, k1, k2⟩ := hk
  obtain ⟨r, h1, h2, -⟩ := stream_run hN hC es (stream_start (M := M)) hl hf k1
  have hr : p1.reading = false := by
    cases hr : p1.reading with
    | false => rfl
    | true => simp [clientPos, ClientPos.next, hr] at k2
  have hq := h2.last p hp hr
  refine ⟨{ r with news := r.news ++ [.got (unaryOutcome C T.resLimit T.resId into .ok p).1 (unaryOutcome C T.resLimit T.resId into .ok p).2] },
    ?_, by simp⟩
  rw [run_append, h1]
  show (r.get C T into >>= fun s => .ok s) = _
  rw [StreamCall.get, get_outcome C hC, hq]
  rfl

set_option maxRecDepth 100000 in
/-- In `chat`, the reply is asked for after another write; it was received in two slices. -/
example : keepsRules ⟨true, true⟩ demoCfg demoTypes (chat.take 9 ++ [.user (.get (numMsg 1))]) ∧
    received ⟨true, true⟩ (chat.take 9) none = some (.slices [[0x08], [0x07]]) ∧
    ∃ m, unaryOutcome demoCfg 100 0 (numMsg 1) .ok (.slices [[0x08], [0x07]]) = (.ok, some m) ∧ m.get 0 = [(0, .num 7)] :=
  ⟨by with_unfolding_all rfl, rfl, _, by with_unfolding_all rfl, rfl⟩

set_option maxRecDepth 100000 in
/-- C130 fails if nothing was received: a call that failed has no response, and `get_response` reports OK and an empty message. -/
theorem C130_nothing_received :
    let es : List ClientStep := [.user (.prepare (numMsg 0)), .user .startCall, .user .startRead, .grpc (.read false (.slices [])),
      .grpc (.done (.other 14) (.slices [])), .user (.get (numMsg 5))]
    keepsRules ⟨true, true⟩ demoCfg demoTypes es ∧ received ⟨true, true⟩ es none = none ∧
    ∃ r m, StreamCall.run ⟨true, true⟩ demoCfg demoTypes es {} = .ok r ∧ r.news = [.got .ok (some m)] ∧ m.get 0 = [(0, .num 0)] :=
  ⟨by with_unfolding_all rfl, rfl, _, _, by with_unfolding_all rfl, rfl, rfl⟩

/-! ## C131 -/

/-- C131. A blocking call sends the encoding of the request; a request that cannot be encoded is not sent, the call reports INTERNAL, and the
response is untouched. It reports OK exactly if gRPC ended the call with OK and with a message that can be read; the response is then
the message that its bytes mean. Otherwise it reports what gRPC ended the call with, unless that is OK. `noMessage` is the status
that gRPC uses for a call without a readable response. -/
theorem C131_blocking (C : Cfg) (hN : numbersOk C) (hC : noClosedOneof C) (limit reqId : Nat) (req : Msg)
    (hl : (wire C limit reqId req).length < 2 ^ 64) (id : Nat) (response : Msg) (noMessage st : Status) (hn : noMessage ≠ .ok) (reply : Option Packet) :
    ∃ r, blockingCall C limit reqId req id response noMessage st reply = .ok r ∧
      (encoding C limit reqId req = none → r.status = .internal ∧ r.response = some response ∧ r.sent = []) ∧
      (∀ b, encoding C limit reqId req = some b → r.sent.map List.flatten = [b] ∧ (st ≠ .ok → r.status = st) ∧
        (r.status = .ok ↔ st = .ok ∧ ∃ segs m, reply = some (.slices segs) ∧ readBinpb C limit id response segs.flatten = .ok m) ∧
        (∀ segs m, reply = some (.slices segs) → readBinpb C limit id response segs.flatten = .ok m → r.response = some m) ∧
        (reply = none → r.response = some response)) := by
  rcases put_any hN hl [] with ⟨b, bs, e1, e2, e3⟩ | ⟨e1, e2⟩
  · cases reply with
    | none =>
      refine ⟨⟨if st = .ok then noMessage else st, some response, [bs]⟩, by rw [blockingCall, e2]; rfl,
        (fun h => (by rw [e1] at h; cases h)), fun b' hb => ?_⟩
      rw [e1] at hb
      cases hb
      refine ⟨by simp [e3], fun h => by simp [h], ?_, (fun _ _ h => nomatch h), fun _ => rfl⟩
      by_cases h : st = .ok <;> simp [h, hn]
    | some p =>
      refine ⟨⟨if st = .ok ∧ (unaryOutcome C limit id response .ok p).1 ≠ .ok then noMessage else st,
        (unaryOutcome C limit id response .ok p).2, [bs]⟩, ?_, (fun h => (by rw [e1] at h; cases h)), fun b' hb => ?_⟩
      · rw [blockingCall, e2]
        show (do
          let (r, m) ← grpcGet C limit id response p
          .ok ⟨if st = .ok ∧ r ≠ .ok then noMessage else st, m, [bs]⟩ : Res Blocking) = _
        rw [get_outcome C hC]; rfl
      · rw [e1] at hb
        cases hb
        refine ⟨by simp [e3], fun h => by simp [h], ?_, ?_, fun h => nomatch h⟩
        · by_cases h : st = .ok
          · subst h
            cases p with
            | compressed => simp [unaryOutcome, hn]
            | slices segs =>
              cases hr : readBinpb C limit id response segs.flatten with
              | ok m => simp [unaryOutcome, hr]
              | _ => simp [unaryOutcome, hr, hn]
          · simp [h]
        · intro segs m h hr
          cases h
          simp [unaryOutcome, hr]
  · refine ⟨⟨.internal, some response, []⟩, by rw [blockingCall, e2]; rfl, fun _ => ⟨rfl, rfl, rfl⟩, fun b hb => ?_⟩
    rw [e1] at hb; cases hb

set_option maxRecDepth 100000 in
/-- A reply in two slices, a reply that cannot be read, and no reply. -/
example : (∃ r m, blockingCall demoCfg 100 0 (numMsg 5) 0 (numMsg 1) (.other 12) .ok (some (.slices [[0x08], [0x07]])) = .ok r ∧
      r.status = .ok ∧ r.sent = [[[0x08, 0x05]]] ∧ r.response = some m ∧ m.get 0 = [(0, .num 7)]) ∧
    (∃ r, blockingCall demoCfg 100 0 (numMsg 5) 0 (numMsg 1) (.other 12) .ok (some (.slices [[0x08]])) = .ok r ∧ r.status = .other 12) ∧
    (∃ r, blockingCall demoCfg 100 0 (numMsg 5) 0 (numMsg 1) (.other 12) (.other 14) none = .ok r ∧ r.status = .other 14) :=
  ⟨⟨_, _, by with_unfolding_all rfl, by decide, by with_unfolding_all rfl, rfl, by with_unfolding_all rfl⟩,
    ⟨_, by with_unfolding_all rfl, by decide⟩, ⟨_, by with_unfolding_all rfl, by decide⟩⟩

end HppProto.Props
