import Verif.Proofs.ServerStream
import Verif.Props.ClientStream
/-!
# Claims C142, C143: what a server sends, and what its requests give

`ServerCall.run M C T es { request := q }` (`Verif/Model/GrpcServerStream.lean`) is an RPC with a new reactor: `es` lists what the handler and gRPC do,
in any order, and `q` is the request of a method without client streaming. `r.taken` is what gRPC took out of the buffer to send, `r.asks` are the
calls into gRPC, and `r.got` is what `token.get` gave.
`obeys`, `sendsNow` and `arrived` (`Verif/Spec/ServerStream.lean`) know nothing of buffers.
-/
namespace HppProto.Props
open HppProto HppProto.Spec

/-! ## C142 -/

/-- C142. For every schedule in which the handler and gRPC keep the rules, nothing undefined happens, gRPC is called exactly as asked, and what gRPC
sends are the encodings of the replies, in order and none of them twice; as long as no write was reported to have failed
it is all of them, but for the last one as long as gRPC has not taken it. A reply that cannot be encoded is not sent: the RPC is
finished with INTERNAL instead. Closed-enum members of oneofs in a request, which make the reader throw (`C18_throws`), are excluded. -/
theorem C142_sent (M : Method) (C : Cfg) (hN : numbersOk C) (hC : noClosedOneof C) (T : StreamTypes) (q : Packet) (es : List ServerStep)
    (hk : obeys M C T es) (hl : ∀ m ∈ replyMsgs es, (wire C T.resLimit T.resId m).length < 2 ^ 64) :
    ∃ r, ServerCall.run M C T es { request := q } = .ok r ∧ r.asks = es.flatMap (dueStep M C T) ∧
      (r.taken.map List.flatten).Sublist (es.flatMap (sendsNow M C T)) ∧
      (ServerStep.grpc (.wrote false) ∉ es → ∀ p, serverPos M C T es (serverStart M) = some p →
        r.taken.map List.flatten = if p.unsent then (es.flatMap (sendsNow M C T)).dropLast else es.flatMap (sendsNow M C T)) := by
  obtain ⟨p, hp⟩ := Option.isSome_iff_exists.1 hk
  obtain ⟨r, h1, h2, h3⟩ := server_run hN hC es (server_start (M := M) q) hl hp
  rw [List.nil_append] at h2
  refine ⟨r, h1, by simpa using h3, (List.sublist_append_left _ _).trans h2.sent, fun hb p' hp' => ?_⟩
  rw [hp] at hp'
  cases hp'
  have := h2.all (by rintro (h | h); exact h; exact hb h)
  rw [← this, waiting]
  cases p.unsent <;> simp

/-- Both ways: each request is answered after the reply before it was sent; the last reply goes with the status. -/
def serverChat : List ServerStep :=
  [.handler .startRead, .grpc (.read true (.slices [[0x08], [0x07]])), .handler (.get 0 (numMsg 1)), .handler (.write (numMsg 5)),
    .handler .startRead, .grpc .take, .grpc (.read true (.slices [[0x08, 0x09]])), .grpc (.wrote true), .handler (.get 1 (numMsg 1)),
    .handler (.finishReply (numMsg 6) .ok), .grpc .take, .grpc .done]

set_option maxRecDepth 100000 in
example : obeys ⟨true, true⟩ demoCfg demoTypes serverChat ∧
    serverChat.flatMap (sendsNow ⟨true, true⟩ demoCfg demoTypes) = [[0x08, 0x05], [0x08, 0x06]] ∧
    (∀ m ∈ replyMsgs serverChat, (wire demoCfg 100 0 m).length < 2 ^ 64) ∧
    ∃ r, ServerCall.run ⟨true, true⟩ demoCfg demoTypes serverChat {} = .ok r ∧ r.taken = [[[0x08, 0x05]], [[0x08, 0x06]]] ∧
      r.asks = [.startRead, .startWrite, .startRead, .writeAndFinish .ok] ∧ r.got.length = 2 := by
  refine ⟨by with_unfolding_all rfl, by decide +kernel, by decide +kernel, _, by with_unfolding_all rfl, by with_unfolding_all rfl,
    by with_unfolding_all rfl, by with_unfolding_all rfl⟩

set_option maxRecDepth 100000 in
/-- A unary method: a reply with OK is sent, one with another status is not, one that cannot be encoded is replaced by INTERNAL, and OK without
a reply sends an empty message. -/
example : ([HandlerAct.finishReply (numMsg 5) .ok, .finishReply (numMsg 5) .cancelled, .finishReply badMsg .ok, .finish .ok].map fun a =>
      [ServerStep.handler a].flatMap (sendsNow ⟨false, false⟩ demoCfg demoTypes)) = [[[0x08, 0x05]], [], [], [[]]] ∧
    ([HandlerAct.finishReply (numMsg 5) .ok, .finishReply (numMsg 5) .cancelled, .finishReply badMsg .ok, .finish .ok].map fun a =>
      dueStep ⟨false, false⟩ demoCfg demoTypes (.handler a)) =
      [[.finish .ok], [.finish .cancelled], [.finish .internal], [.finish .ok]] ∧
    obeys ⟨false, false⟩ demoCfg demoTypes [.handler (.get 0 (numMsg 1)), .handler (.finish .ok), .grpc .take, .grpc .done] := by
  refine ⟨by decide +kernel, by decide +kernel, by with_unfolding_all rfl⟩

/-- The rule that C142 needs: a handler that writes again before it was told that the write before is done loses that reply; the one
written later is sent in its place. "`ServerRPC::write` serializes immediately, so you can reuse buffers between writes"
(docs/grpc-adapter.md 198) does not mean that writes are kept apart. -/
theorem C142_overlapping (M : Method) (C : Cfg) (hN : numbersOk C) (T : StreamTypes) (q : Packet) (m n : Msg) (a b : List Byte)
    (hm : encoding C T.resLimit T.resId m = some a) (hn : encoding C T.resLimit T.resId n = some b)
    (lm : (wire C T.resLimit T.resId m).length < 2 ^ 64) (ln : (wire C T.resLimit T.resId n).length < 2 ^ 64) :
    ∃ r, ServerCall.run M C T [.handler (.write m), .handler (.write n), .grpc .take] { request := q } = .ok r ∧
      r.asks = [.startWrite, .startWrite] ∧ r.taken.map List.flatten = [b] := by
  rcases put_any hN lm [] with ⟨a', as, e1, e2, -⟩ | ⟨e1, -⟩
  · rcases put_any hN ln as with ⟨b', bs, f1, f2, f3⟩ | ⟨f1, -⟩
    · rw [hn] at f1
      cases f1
      refine ⟨{ request := q, response := bs, taken := [bs], asks := [.startWrite, .startWrite] }, ?_, rfl, by simp [f3]⟩
      have s1 : ServerCall.step M C T { request := q } (.handler (.write m)) = .ok { request := q, response := as, asks := [.startWrite] } := by
        simp only [ServerCall.step, if_true, ServerCall.act, ServerCall.write]
        rw [e2]; rfl
      have s2 : ServerCall.step M C T { request := q, response := as, asks := [.startWrite] } (.handler (.write n)) =
          .ok { request := q, response := bs, asks := [.startWrite, .startWrite] } := by
        simp only [ServerCall.step, if_true, ServerCall.act, ServerCall.write]
        rw [f2]; rfl
      rw [ServerCall.run, s1]
      show ServerCall.run M C T [.handler (.write n), .grpc .take] _ = _
      rw [ServerCall.run, s2]
      rfl
    · rw [hn] at f1; cases f1
  · rw [hm] at e1; cases e1

example : encoding demoCfg 100 0 (numMsg 5) = some [0x08, 0x05] ∧ encoding demoCfg 100 0 (numMsg 6) = some [0x08, 0x06] :=
  ⟨by decide +kernel, by decide +kernel⟩

/-! ## C143 -/

/-- C143. For a method without client streaming `token.get`, whenever it is called before `OnDone`, gives the message that the bytes of the
request mean, or reports that they mean none (`unaryOutcome`). In a stream this holds for the token of the request that
arrived last, as long as no read was started since. Missing from the full claim: tokens that are kept for longer (`C143_late_token`). -/
theorem C143_token_partial (M : Method) (C : Cfg) (hN : numbersOk C) (hC : noClosedOneof C) (T : StreamTypes) (q : Packet) (es : List ServerStep)
    (k : Nat) (into : Msg) (hk : obeys M C T (es ++ [.handler (.get k into)]))
    (hl : ∀ m ∈ replyMsgs es, (wire C T.resLimit T.resId m).length < 2 ^ 64)
    (hs : M.clientStreaming = true → k + 1 = (arrived M q es).length ∧ stillThere false es = true)
    (p : Packet) (hp : (arrived M q es)[k]? = some p) :
    ∃ r, ServerCall.run M C T (es ++ [.handler (.get k into)]) { request := q } = .ok r ∧
      r.got.getLast? = some (unaryOutcome C T.reqLimit T.reqId into .ok p) := by
  obtain ⟨p2, hk⟩ := Option.isSome_iff_exists.1 hk
  rw [serverPos_append, Option.bind_eq_some_iff] at hk
  obtain ⟨p1, k1, k2⟩ := hk
  obtain ⟨r, h1, h2, -⟩ := server_run hN hC es (server_start (M := M) q) hl k1
  rw [serverPos, Option.bind_eq_some_iff] at k2
  obtain ⟨p3, k2, -⟩ := k2
  obtain ⟨r2, g1, -, -, g2⟩ := server_step hN hC h2 (fun m hm => absurd hm (List.not_mem_nil)) k2
  have hr : r.request = p := by
    rw [arrived] at hp
    cases hc : M.clientStreaming with
    | false =>
      obtain ⟨-, o2, o3⟩ := h2.only hc
      rw [o2] at hp
      rw [o3]
      cases k with
      | zero => simpa using hp
      | succ k => simp at hp
    | true =>
      obtain ⟨s1, s2⟩ := hs hc
      have := h2.last (by rw [hc]; exact s2)
      rw [arrived] at s1
      rw [List.getLast?_eq_getElem?, ← s1, Nat.add_sub_cancel, hp] at this
      exact (Option.some.inj this).symm
  refine ⟨r2, ?_, ?_⟩
  · rw [server_run_append, h1]
    show (r.step M C T _ >>= fun s => .ok s) = _
    rw [g1]; rfl
  · rw [g2, hr]; simp

set_option maxRecDepth 100000 in
/-- In `serverChat` the second request is read after the reply to the first one was sent. -/
example : obeys ⟨true, true⟩ demoCfg demoTypes (serverChat.take 8 ++ [.handler (.get 1 (numMsg 1))]) ∧
    arrived ⟨true, true⟩ (.slices []) (serverChat.take 8) = [.slices [[0x08], [0x07]], .slices [[0x08, 0x09]]] ∧
    stillThere false (serverChat.take 8) = true ∧
    ∃ m, unaryOutcome demoCfg 100 0 (numMsg 1) .ok (.slices [[0x08, 0x09]]) = (.ok, some m) ∧ m.get 0 = [(0, .num 9)] :=
  ⟨by with_unfolding_all rfl, rfl, rfl, _, by with_unfolding_all rfl, rfl⟩

/-- C143 fails for every token of a stream that is kept until the next request has arrived: it gives that request instead. -/
theorem C143_late_token (M : Method) (hM : M.clientStreaming = true) (C : Cfg) (hC : noClosedOneof C) (T : StreamTypes) (q a b : Packet) (into : Msg) :
    let es : List ServerStep := [.handler .startRead, .grpc (.read true a), .handler .startRead, .grpc (.read true b)]
    obeys M C T (es ++ [.handler (.get 0 into)]) ∧ (arrived M q es)[0]? = some a ∧
    ∃ r, ServerCall.run M C T (es ++ [.handler (.get 0 into)]) { request := q } = .ok r ∧
      r.got = [unaryOutcome C T.reqLimit T.reqId into .ok b] := by
  refine ⟨?_, ?_, ⟨{ request := b, asks := [.startRead, .startRead], got := [unaryOutcome C T.reqLimit T.reqId into .ok b] }, ?_, rfl⟩⟩
  · simp [obeys, serverPos, ServerPos.next, serverStart, hM]
  · simp [arrived, hM, brings]
  · show (do
      let s ← ServerCall.get C T into { request := b, asks := [.startRead, .startRead] }
      .ok s : Res ServerCall) = _
    rw [ServerCall.get, get_outcome C hC]
    rfl

/-- C143 fails: not every token gives the request that it came with. -/
theorem C143_statement_false :
    ¬ ∀ (M : Method) (C : Cfg) (T : StreamTypes) (q : Packet) (es : List ServerStep) (k : Nat) (into : Msg) (p : Packet),
      obeys M C T (es ++ [.handler (.get k into)]) → (arrived M q es)[k]? = some p →
      ∃ r, ServerCall.run M C T (es ++ [.handler (.get k into)]) { request := q } = .ok r ∧
        r.got.getLast? = some (unaryOutcome C T.reqLimit T.reqId into .ok p) := by
  intro h
  have hC : noClosedOneof demoCfg := demo_noClosed
  obtain ⟨h1, h2, r, h3, h4⟩ := C143_late_token ⟨true, true⟩ rfl demoCfg hC demoTypes .compressed (.slices []) .compressed (numMsg 1)
  obtain ⟨r', h5, h6⟩ := h _ _ _ _ _ _ _ _ h1 h2
  rw [h3] at h5
  cases h5
  rw [h4] at h6
  exact absurd (congrArg (·.map Prod.fst) h6) (by decide +kernel)

/-- A token that is used after `OnDone` refers to freed memory. -/
theorem C143_after_done (M : Method) (C : Cfg) (T : StreamTypes) (q : Packet) (into : Msg) (k : Nat) :
    ServerCall.run M C T [.handler (.finish .ok), .grpc .done, .handler (.get k into)] { request := q } = .ub := rfl

end HppProto.Props
